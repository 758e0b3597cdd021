{
 "claims": [
  {
   "property": "C01",
   "status": "proved",
   "theorems": [
    "Pipedream.Sweep.C01_internals_solve_saint_venant",
    "Pipedream.Sweep.C01_physical",
    "Pipedream.Superlink.C01_with_end_flows",
    "Pipedream.Step.C01_step",
    "Pipedream.Step.C01_momentum_and_continuity"
   ],
   "note": ""
  },
  {
   "property": "C02",
   "status": "proved",
   "theorems": [
    "Pipedream.Sweep.C02_pivots_positive",
    "Pipedream.Link.C02_coefficients_physical"
   ],
   "note": ""
  },
  {
   "property": "C03",
   "status": "proved",
   "theorems": [
    "Pipedream.Sweep.C03_superlinks_independent"
   ],
   "note": ""
  },
  {
   "property": "C04",
   "status": "proved",
   "theorems": [
    "Pipedream.Superlink.C04_end_relations",
    "Pipedream.Superlink.C04_end_relations_unique",
    "Pipedream.Step.C04_end_depths",
    "Pipedream.Step.C04_reported_end_depths"
   ],
   "note": ""
  },
  {
   "property": "C05",
   "status": "proved",
   "theorems": [
    "Pipedream.Superlink.C05_determinant_ge_one"
   ],
   "note": "Default bc_method 'z'."
  },
  {
   "property": "C06",
   "status": "proved",
   "theorems": [
    "Pipedream.Network.C06_unique_solution",
    "Pipedream.Step.C06_step",
    "Pipedream.Step.C06_step_exists"
   ],
   "note": "Z-matrix with strictly dominant columns; C06_step/C06_step_exists instantiate it for the coefficients a step really computes (bc_method z, positive damping coefficient, storage area > 0 at free superjunctions)."
  },
  {
   "property": "C07",
   "status": "proved",
   "theorems": [
    "Pipedream.Network.C07_mass_balance",
    "Pipedream.Step.C07_step",
    "Pipedream.Step.C07_step_local",
    "Pipedream.Step.C07_reported_flows",
    "Pipedream.Step.C07_superlink_balance"
   ],
   "note": "Balance at new heads when no head is clipped; at the solver's heads when only the superjunction itself is unclipped."
  },
  {
   "property": "C08",
   "status": "proved",
   "theorems": [
    "Pipedream.Network.C08_fixed_heads",
    "Pipedream.Step.C08_step"
   ],
   "note": "H_bc=None means the current head."
  },
  {
   "property": "C09",
   "status": "proved",
   "theorems": [
    "Pipedream.Step.C09_heads_bounded",
    "Pipedream.Network.C09_clip_bounds"
   ],
   "note": "Invariant after the constructor's own step and any further calls; any geometry and inputs."
  },
  {
   "property": "C10",
   "status": "proved",
   "theorems": [
    "Pipedream.Step.C10_depths_bounded",
    "Pipedream.Sweep.C10_depth_bounds"
   ],
   "note": "Invariant over call histories; upper bound is max(min_depth, max_depth_k)."
  },
  {
   "property": "C100",
   "status": "proved",
   "theorems": [
    "Pipedream.Step.C100_steady_reproduced",
    "Pipedream.Step.C100_reproduced_steady",
    "Pipedream.Step.C100_reproduced_iff",
    "Pipedream.Step.C100_steady_for_ever",
    "Pipedream.Step.C100_manning",
    "Pipedream.Step.C100_normal_depth"
   ],
   "note": "Both directions, for whole networks with controls; for ever by induction over calls; Manning normal discharge as instance. Conditions are part of the statement (default end method, bounds not active, volume limit of orifices not active)."
  },
  {
   "property": "C101",
   "status": "partial",
   "theorems": [
    "Pipedream.Step.C101_delivered",
    "Pipedream.Step.C101_discrepancy",
    "Pipedream.Step.C101_bounds_partial",
    "Pipedream.Step.C101_vertical_walls",
    "Pipedream.Step.C101_creates_water",
    "Pipedream.Step.C101_cycle"
   ],
   "note": "Exact for vertical walls; for storages widening upwards each change of level creates water (strict inequality), bounded by area change times level change; a fill/empty cycle yields a net withdrawal."
  },
  {
   "property": "C102",
   "status": "partial",
   "theorems": [
    "Pipedream.Infiltration.C102_recovers_partial",
    "Pipedream.Infiltration.C102_saturated_for_ever",
    "Pipedream.Infiltration.C102_dry_for_ever",
    "Pipedream.Infiltration.C102_every_soil"
   ],
   "note": "Proved for unsaturated elements (C102_recovers_partial: any number of dry steps of any sizes). False for saturated ones: once saturated an element stays saturated under all weather, on every soil."
  },
  {
   "property": "C103",
   "status": "partial",
   "theorems": [
    "Pipedream.Infiltration.C103_no_ponding_partial",
    "Pipedream.Infiltration.C103_same_solution_partial",
    "Pipedream.Infiltration.C103_flag",
    "Pipedream.Infiltration.C103_fresh_raises",
    "Pipedream.Infiltration.C103_every_soil",
    "Pipedream.Infiltration.C103_completes_partial",
    "Pipedream.Infiltration.C103_both_partial"
   ],
   "note": "Equal results without ponding; with ponding and a cumulative infiltration of at least 1e-200 m both classes complete the step and agree up to the solver tolerance over the slope of the equation. False: first ponding raises without numba, and the saturation flags differ."
  },
  {
   "property": "C104",
   "status": "partial",
   "theorems": [
    "Pipedream.Binding.C104_numba_partial",
    "Pipedream.Binding.C104_numba_no_type_error_partial",
    "Pipedream.Binding.C104_base_step",
    "Pipedream.Binding.C104_base_construct",
    "Pipedream.Binding.C104_only_two",
    "Pipedream.Binding.C104_order",
    "Pipedream.Binding.C104_iterations"
   ],
   "note": "Proved for the numba class: every call binds, so no TypeError can come from the calls themselves. False for the class used without numba: superlink_upstream_head_coefficients and superlink_downstream_head_coefficients accept no _dt, so every construction and every step raises TypeError; these two calls are the only ones that fail to bind. Bodies of the numerical routines are parameters of the model."
  },
  {
   "property": "C105",
   "status": "proved",
   "theorems": [
    "Pipedream.Step.C105_step_succeeds",
    "Pipedream.Step.C105_every_history_succeeds",
    "Pipedream.Step.C105_unique"
   ],
   "note": "For sections of every shape in the model (closed forms and tables), functional and tabular storages, all controls; Manning or Hazen-Williams friction, no inertial damping. Floodplain orifice areas are whatever the object holds."
  },
  {
   "property": "C106",
   "status": "proved",
   "theorems": [
    "Pipedream.Step.C106_call",
    "Pipedream.Step.C106_history",
    "Pipedream.Step.C106_results"
   ],
   "note": "The step with its own geometry, all controls, any history; for sound models whatever the raised model computes is the raised result."
  },
  {
   "property": "C107",
   "status": "partial",
   "theorems": [
    "Pipedream.Driver.C107_scaled_iff",
    "Pipedream.Driver.C107_high_accepts",
    "Pipedream.Driver.C107_some_datum_rejects",
    "Pipedream.Driver.C107_equal_partial"
   ],
   "note": "False: the scaled error is the same only if there is no error or no shift; a low enough datum accepts any difference, some datum rejects everything. Holds for equal solutions."
  },
  {
   "property": "C108",
   "status": "proved",
   "theorems": [
    "Pipedream.Step.C108_order_of_rows"
   ],
   "note": "Two models that differ only by a renumbering of rows (injective, same counts, same data and neighbours) show the same states through every history; stale scratch matrices allowed."
  },
  {
   "property": "C109",
   "status": "proved",
   "theorems": [
    "Pipedream.Step.C109_isolated_part"
   ],
   "note": "The large network need only have consistent tables and complete its steps; the part is a sound model. The solver is an oracle returning a solution of the whole system."
  },
  {
   "property": "C11",
   "status": "proved",
   "theorems": [
    "Pipedream.Network.C11_no_stale_coefficients",
    "Pipedream.Network.C11_history",
    "Pipedream.Control.C11_orifice_no_stale",
    "Pipedream.Control.C11_weir_no_stale",
    "Pipedream.Control.C11_pump_no_stale",
    "Pipedream.Step.C11_calls_clean",
    "Pipedream.Step.C41_history_free",
    "Pipedream.Step.C11_pass_no_stale"
   ],
   "note": "Matrices over any history, control coefficient arrays, and whole objects."
  },
  {
   "property": "C110",
   "status": "proved",
   "theorems": [
    "Pipedream.Step.C110_elsewhere"
   ],
   "note": "Follows from C109 with the small run supplied by C105."
  },
  {
   "property": "C111",
   "status": "partial",
   "theorems": [
    "Pipedream.Step.C111_direction_partial",
    "Pipedream.Step.C111_cut_depths_show_the_direction"
   ],
   "note": "Holds through every sequence of calls as long as no interior depth of a turned superlink reaches its bounds. Where it does, the code violates the property: concrete sound model and call in C111_cut_depths_show_the_direction. The elliptic integral of the model is assumed symmetric in the two depths (it only sees their mean in the code)."
  },
  {
   "property": "C112",
   "status": "partial",
   "theorems": [
    "Pipedream.Geometry.C112_libraries_agree_partial",
    "Pipedream.Geometry.C112_circular_width_iff",
    "Pipedream.Geometry.C112_rect_closed_width_iff",
    "Pipedream.Geometry.C112_default_slot",
    "Pipedream.Geometry.C112_floodplain_raises"
   ],
   "note": "Areas, perimeters, radii agree for all shapes but the compound section, widths for all shapes without a slot. Not proved because false: the widths of closed sections agree exactly if the depth is below the crown or the slot is 0.001, the compound section of the pure-Python library raises."
  },
  {
   "property": "C113",
   "status": "proved",
   "theorems": [
    "Pipedream.Geometry.C113_wetted_arc",
    "Pipedream.Geometry.C113_angle",
    "Pipedream.Geometry.C113_at_least_twice_the_depth",
    "Pipedream.Geometry.C113_dry",
    "Pipedream.Geometry.C113_monotone",
    "Pipedream.Geometry.C113_circle"
   ],
   "note": "ellipe and ellipeinc are the integrals that define them."
  },
  {
   "property": "C114",
   "status": "partial",
   "theorems": [
    "Pipedream.Config.C114_named_section_partial",
    "Pipedream.Config.C114_raises_iff",
    "Pipedream.Config.C114_unknown_shape",
    "Pipedream.Config.C114_unknown_transect",
    "Pipedream.Config.C114_earlier_models",
    "Pipedream.Config.C114_dictionary"
   ],
   "note": "Links naming a known shape or transect are computed with it, independently of earlier models. Not proved because false: unknown names are accepted silently (exact effect proved); irregular shapes without transects raise TypeError."
  },
  {
   "property": "C115",
   "status": "proved",
   "theorems": [
    "Pipedream.Quality.C115_units",
    "Pipedream.Quality.C115_solver",
    "Pipedream.Quality.C115_solved"
   ],
   "note": "Whole runs, every array, limits scaled too."
  },
  {
   "property": "C116",
   "status": "proved",
   "theorems": [
    "Pipedream.Quality.C116_superposition"
   ],
   "note": "Hypotheses: nonnegative weights and concentrations, positive volumes, balanced water (the code's imports need not satisfy it, see C78), default limits 0 and infinity."
  },
  {
   "property": "C117",
   "status": "proved",
   "theorems": [
    "Pipedream.Quality.C117_comparison"
   ],
   "note": "Hypotheses as C116."
  },
  {
   "property": "C118",
   "status": "proved",
   "theorems": [
    "Pipedream.Quality.C118_entry"
   ],
   "note": "For given face flows, areas and volumes (class Hydro); default limits; hypotheses on water as C116. The import of these from the hydraulic model does depend on the order of rows: the shape test reads link 0 and the end stretches of superlink k read the diameter of link k, see C79."
  },
  {
   "property": "C119",
   "status": "proved",
   "theorems": [
    "Pipedream.Record.C119_run",
    "Pipedream.Record.C119_step",
    "Pipedream.Record.C119_construct",
    "Pipedream.Record.C119_inputs",
    "Pipedream.Record.C119_progress"
   ],
   "note": "The hydraulics are any function of state, step size and inputs (as modelled: the hydraulic step reads no clock)."
  },
  {
   "property": "C12",
   "status": "proved",
   "theorems": [
    "Pipedream.Network.C12_reorder",
    "Pipedream.Network.C12_renumber"
   ],
   "note": "Reordering gives identical matrix and right-hand side; renumbering superjunctions renumbers the solution."
  },
  {
   "property": "C120",
   "status": "proved",
   "theorems": [
    "Pipedream.Step.C120_history",
    "Pipedream.Step.C120_froude_law",
    "Pipedream.Step.C120_froude_similarity",
    "Pipedream.Step.C120_darcy_weisbach",
    "Pipedream.Step.ellOf_scale"
   ],
   "note": "The scaled model, objects and inputs are spelled out in ScaleModel by dimension. C120_history is an iff over all histories for an arbitrary change of the units of length and time; C120_froude_similarity is the case with unchanged gravity, for whatever result the larger model reaches. Hypotheses: friction method not Darcy-Weisbach, pump exponents nonzero, parabolas with nonnegative height, the perimeter of ellipses a length (proved for the arc of geometry.py, ellOf_scale). C120_darcy_weisbach shows that the excluded friction law has no similar model."
  },
  {
   "property": "C121",
   "status": "proved",
   "theorems": [
    "Pipedream.Interp.C121_functional_area_iff",
    "Pipedream.Interp.C121_functional_volume",
    "Pipedream.Interp.C121_functional_in_use",
    "Pipedream.Interp.C121_inside",
    "Pipedream.Interp.C121_below_iff",
    "Pipedream.Interp.C121_above_iff",
    "Pipedream.Interp.C121_growing"
   ],
   "note": "Exact conditions for every depth, and equality everywhere for storages that do not narrow. interp1d is a trusted library call given by its definition."
  },
  {
   "property": "C122",
   "status": "partial",
   "theorems": [
    "Pipedream.Interp.C122_base_iff",
    "Pipedream.Interp.C122_base",
    "Pipedream.Interp.C122_constructor_iff",
    "Pipedream.Interp.C122_step_iff",
    "Pipedream.Interp.C122_no_dictionary",
    "Pipedream.Interp.C122_numba",
    "Pipedream.Interp.C122_honoured_partial",
    "Pipedream.Interp.C122_overwritten",
    "Pipedream.Interp.StorageEx.unused"
   ],
   "note": "Exactly which tables are accepted by the constructors and by the steps, and what each row gets. The code violates the property: unknown names are not rejected by the constructor, unused entries are, functional rows with a name are overwritten (numba class), unknown names keep the old area (base class); dictionaries not in alphabetical order are C65."
  },
  {
   "property": "C123",
   "status": "partial",
   "theorems": [
    "Pipedream.Recover.C123_flows",
    "Pipedream.Recover.C123_flows_twin",
    "Pipedream.Recover.C123_concentrations_code",
    "Pipedream.Recover.C123_concentrations_iff",
    "Pipedream.Recover.C123_clean",
    "Pipedream.Recover.C123_intended_partial",
    "Pipedream.Recover.C123_witness"
   ],
   "note": "Flows are recovered, by both classes. Concentrations are not: arguments in the wrong order; the exact returned values, the condition under which they are right and a witness are proved."
  },
  {
   "property": "C124",
   "status": "partial",
   "theorems": [
    "Pipedream.Base.C124_same_coefficients_partial",
    "Pipedream.Base.C124_storage_dropped",
    "Pipedream.Base.C124_two_flows_iff",
    "Pipedream.Base.C124_vanishing_divisor",
    "Pipedream.Base.C124_witness"
   ],
   "note": "Equal coefficients are proved for every end method but 'o' (physical coefficients, any mixture of lengths, any previous arrays), with termination of both loops. Violated for end_method='o': the two sweeps drop the storage of different junctions; proved exactly what they compute, when they agree, and a witness. Also what happens where a divisor vanishes."
  },
  {
   "property": "C125",
   "status": "partial",
   "theorems": [
    "Pipedream.Base.C125_same_partial",
    "Pipedream.Base.C125_velocity_iff",
    "Pipedream.Base.C125_junction_velocities",
    "Pipedream.Base.C125_b_iff",
    "Pipedream.Base.C125_b_damped_iff",
    "Pipedream.Base.C125_b_control_iff",
    "Pipedream.Base.C125_uniform_flow_iff",
    "Pipedream.Base.C125_P",
    "Pipedream.Base.C125_interior",
    "Pipedream.Base.C125_ends_iff",
    "Pipedream.Base.C125_witness"
   ],
   "note": "The classes disagree under damping, at control structures with C\u22601, at end junctions with a stretch to the pipe end, and after the first iterate; exact conditions proved, agreement elsewhere."
  },
  {
   "property": "C126",
   "status": "partial",
   "theorems": [
    "Pipedream.Base.C126_flows",
    "Pipedream.Base.C126_flows_z_partial",
    "Pipedream.Base.C126_loss_iff",
    "Pipedream.Base.C126_loss_down_iff",
    "Pipedream.Base.C126_loss_larger",
    "Pipedream.Base.C126_depth",
    "Pipedream.Base.C126_relations_iff",
    "Pipedream.Base.C126_relations_partial",
    "Pipedream.Base.C126_negative_depth",
    "Pipedream.Base.C126_ji_upstream_iff",
    "Pipedream.Base.C126_ji_downstream_iff",
    "Pipedream.Base.C126_base_methods",
    "Pipedream.Base.C126_common_method",
    "Pipedream.Base.C126_witness",
    "Pipedream.Base.C126_any_method_partial",
    "Pipedream.Base.C126_depths_z",
    "Pipedream.Base.C126_ji_iff"
   ],
   "note": "The flows agree for the same losses and the relations hold at or above the inverts; the losses agree only for C in {0,1} or no loss, depths below an invert contradict the flows, 'j' reproduces its state only for rectangular sections or no head difference."
  },
  {
   "property": "C127",
   "status": "partial",
   "theorems": [
    "Pipedream.Base.C127_exact_partial",
    "Pipedream.Base.C127_raised_forwards",
    "Pipedream.Base.C127_raised_backwards",
    "Pipedream.Base.C127_numba_iff",
    "Pipedream.Base.C127_split",
    "Pipedream.Base.C127_witness"
   ],
   "note": "Exact solution in both directions where no depth is below the minimum; where one is raised the result solves the equations for no end flows; agrees with the numba class exactly where the maximum depth is not exceeded."
  },
  {
   "property": "C128",
   "status": "partial",
   "theorems": [
    "Pipedream.Irregular.C128_area_iff",
    "Pipedream.Irregular.C128_area_ends_partial",
    "Pipedream.Irregular.C128_growth",
    "Pipedream.Irregular.C128_width_iff",
    "Pipedream.Irregular.C128_bankfull_width",
    "Pipedream.Irregular.C128_perimeter",
    "Pipedream.Irregular.C128_raises_iff",
    "Pipedream.Irregular.C128_always_full",
    "Pipedream.Irregular.C128_lookup_partial",
    "Pipedream.Irregular.C128_witness",
    "Pipedream.Irregular.C128_perimeter_above",
    "Pipedream.Irregular.C128_straight_bed",
    "Pipedream.Irregular.C128_levels_partial"
   ],
   "note": "Holds for surveys measured from their lowest point except that the tabulated area overstates every level crossed by a stretch and the width counts one step too many; other datums raise or are always bank-full."
  },
  {
   "property": "C129",
   "status": "partial",
   "theorems": [
    "Pipedream.Heap.C129_snapshot_partial",
    "Pipedream.Heap.C129_assigned_kept_partial",
    "Pipedream.Heap.C129_inputs_kept",
    "Pipedream.Heap.C129_live",
    "Pipedream.Heap.C129_no_change_seen",
    "Pipedream.Heap.C129_assigned_overwritten",
    "Pipedream.Heap.C129_detached"
   ],
   "note": "Holds for heads, end flows, control flows, the time and arrays passed to a step (snapshot, assigned_kept, inputs_kept); fails for the arrays a step writes into, for which the negation is proved for all runs (live, no_change_seen, assigned_overwritten); a reload cuts the connection (detached)."
  },
  {
   "property": "C13",
   "status": "proved",
   "theorems": [
    "Pipedream.Network.C13_banded_eq_dense",
    "Pipedream.Network.C13_permuted_heads",
    "Pipedream.Network.C13_storage_lossless",
    "Pipedream.Network.C13_unpermuted_gap"
   ],
   "note": "Proved for every ordering a (reverse) breadth-first/Cuthill-McKee numbering can produce; scipy's reverse_cuthill_mckee and solve_banded are taken by specification. C13_unpermuted_gap shows the automatic permutation is needed: on an unpermuted model _compute_bandwidth can stop at an empty diagonal."
  },
  {
   "property": "C130",
   "status": "partial",
   "theorems": [
    "Pipedream.Heap.C130_stays_integer",
    "Pipedream.Heap.C130_float_partial",
    "Pipedream.Heap.C130_rebound_partial"
   ],
   "note": "Fails: an integer array assigned to an overwritten state stays an integer array for ever in the base class (stays_integer); float arrays and attributes that are bound anew are not affected."
  },
  {
   "property": "C131",
   "status": "partial",
   "theorems": [
    "Pipedream.Infiltration.C131_factor_partial",
    "Pipedream.Infiltration.C131_never_exact",
    "Pipedream.Infiltration.C131_products"
   ],
   "note": "The code takes a metre to have 39.97 inches, so no constant is the intended one (C131_never_exact, for every positive conductivity); proved instead: the exact factor between them and the products in which it cancels."
  },
  {
   "property": "C132",
   "status": "proved",
   "theorems": [
    "Pipedream.Infiltration.C132_integral",
    "Pipedream.Infiltration.density_eq",
    "Pipedream.Infiltration.C132_range",
    "Pipedream.Infiltration.C132_decreasing",
    "Pipedream.Infiltration.C132_any_conductivity",
    "Pipedream.Infiltration.C132_raises"
   ],
   "note": ""
  },
  {
   "property": "C133",
   "status": "partial",
   "theorems": [
    "Pipedream.Network.C133_same_partial",
    "Pipedream.Network.C133_balance_partial",
    "Pipedream.Network.C133_reassembled",
    "Pipedream.Network.C133_iterated_steady",
    "Pipedream.Network.C133_pipe_ends",
    "Pipedream.Network.C133_loop",
    "Pipedream.Network.C133_floor"
   ],
   "note": "Same equations without pipe-end storage and loops and given the last iterate; the code takes the last iterate as the start of the step, omits pipe ends, overwrites diagonals at loops and floors heads at min_depth: each proved."
  },
  {
   "property": "C134",
   "status": "partial",
   "theorems": [
    "Pipedream.Control.C134_orifice_partial",
    "Pipedream.Control.C134_equal_heads",
    "Pipedream.Control.C134_oneway_ignored",
    "Pipedream.Control.C134_weir",
    "Pipedream.Control.C134_pumps_missing",
    "Pipedream.Control.C134_two_pumps",
    "Pipedream.Control.C134_one_pump",
    "Pipedream.Control.C134_ellipse",
    "Pipedream.Control.C134_ellipse_falling",
    "Pipedream.Control.C134_ellipse_limits"
   ],
   "note": "Weirs agree; orifices agree unless one-way and passed backwards (limit differs at equal heads); pumps of the pure-Python class raise."
  },
  {
   "property": "C135",
   "status": "partial",
   "theorems": [
    "Pipedream.Reposition.C135_geometry",
    "Pipedream.Reposition.C135_depth",
    "Pipedream.Reposition.C135_one_place_partial",
    "Pipedream.Reposition.C135_mean_iff",
    "Pipedream.Reposition.C135_two_places",
    "Pipedream.Reposition.C135_two_places_up",
    "Pipedream.Reposition.C135_excluded",
    "Pipedream.Reposition.C135_four_links",
    "Pipedream.Reposition.C135_witness"
   ],
   "note": "Geometry and depths as claimed; flows only for moves by at most one place; masks spoil excluded superlinks and other numbers of internal links raise: proved."
  },
  {
   "property": "C136",
   "status": "partial",
   "theorems": [
    "Pipedream.Visual.C136_lookup",
    "Pipedream.Visual.C136_lookup_none",
    "Pipedream.Visual.C136_needs_two",
    "Pipedream.Visual.C136_drawn",
    "Pipedream.Visual.C136_superjunctions",
    "Pipedream.Visual.C136_superlinks",
    "Pipedream.Visual.C136_upstream",
    "Pipedream.Visual.C136_parallel",
    "Pipedream.Visual.C136_fits_partial",
    "Pipedream.Visual.C136_upside_down",
    "Pipedream.Visual.C136_overlap"
   ],
   "note": "What is drawn where is proved for all paths; everything fits if every pair is joined by a superlink in that direction and there is no upstream end stretch. The code leaves out superlinks followed upstream and parallel ones, turns the axis upside down if none is found, and overlaps superjunctions by the end stretch."
  },
  {
   "property": "C137",
   "status": "partial",
   "theorems": [
    "Pipedream.Visual.C137_spacing",
    "Pipedream.Visual.C137_ends",
    "Pipedream.Visual.C137_between_partial",
    "Pipedream.Visual.C137_beyond",
    "Pipedream.Visual.C137_surfaces",
    "Pipedream.Visual.C137_bed_below",
    "Pipedream.Visual.C137_beds_iff"
   ],
   "note": "Spacing, ends and limits are proved; junctions lie between the superjunctions without upstream end stretch, otherwise they do not, and the vertical axis leaves out the lowest bed."
  },
  {
   "property": "C138",
   "status": "proved",
   "theorems": [
    "Pipedream.Network.C138_heads",
    "Pipedream.Network.C138_imbalance",
    "Pipedream.Step.C138_step",
    "Pipedream.Step.C138_one_head",
    "Pipedream.Step.C138_more",
    "Pipedream.Step.C138_moves"
   ],
   "note": "L1 contraction of the head equations in volumes, for the state a step reports; coefficient arrays and scratch are the same in both steps because the code computes them before the inflows enter. Default bc_method 'z'. Errors of lateral inflows into pipes are not covered."
  },
  {
   "property": "C139",
   "status": "proved",
   "theorems": [
    "Pipedream.Infiltration.C139_step",
    "Pipedream.Infiltration.C139_sound",
    "Pipedream.Infiltration.C139_run",
    "Pipedream.Infiltration.C139_weather"
   ],
   "note": "Every soil, every weather: a run from a fresh element stops at most where more than 10^7 m of water are in play."
  },
  {
   "property": "C14",
   "status": "partial",
   "theorems": [
    "Pipedream.Step.C14_still_water_partial",
    "Pipedream.Step.C14_still_for_ever_partial",
    "Pipedream.Step.C14_sloped_ends_flow"
   ],
   "note": "Proved for all networks with level end stretches, orifices fully submerged or dry, pumps off or dry. Missing: sloped end stretches, where it is false (C14_sloped_ends_flow), and heads inside an orifice opening (C20_equal_heads_flow)."
  },
  {
   "property": "C140",
   "status": "proved",
   "theorems": [
    "Pipedream.Root.C140_same",
    "Pipedream.Root.C140_never_raises",
    "Pipedream.Root.C140_value",
    "Pipedream.Root.C140_returns",
    "Pipedream.Root.C140_defaults"
   ],
   "note": "Same search, None for the exception; the defaults differ (C140_defaults)."
  },
  {
   "property": "C141",
   "status": "partial",
   "theorems": [
    "Pipedream.Geometry.C141_section_datum",
    "Pipedream.Geometry.C141_datum_iff",
    "Pipedream.Geometry.C141_depth_partial",
    "Pipedream.Geometry.C141_dry",
    "Pipedream.Geometry.C141_never_empty",
    "Pipedream.Geometry.C141_bankfull"
   ],
   "note": "The lookup equals the area at depth at every sampled depth exactly when the lowest station is at zero; the three ways it fails otherwise are proved. Partial because the code reads levels as depths."
  },
  {
   "property": "C142",
   "status": "partial",
   "theorems": [
    "Pipedream.Step.C142_repeated_partial",
    "Pipedream.Step.C142_pumps_stop",
    "Pipedream.Step.C142_pump_left_out",
    "Pipedream.Step.C142_weirs_close",
    "Pipedream.Step.C142_weir_left_out",
    "Pipedream.Step.C142_orifice_exceeds",
    "Pipedream.Step.C142_orifice_limit"
   ],
   "note": "Holds when the step's control signals and step size are passed again; simulation.py passes none, and what then happens to pumps, weirs and orifices is proved."
  },
  {
   "property": "C143",
   "status": "partial",
   "theorems": [
    "Pipedream.Quality.C143_fixed",
    "Pipedream.Quality.C143_tank_iff",
    "Pipedream.Quality.C143_filled",
    "Pipedream.Quality.C143_erased",
    "Pipedream.Quality.C143_superjunction_iff",
    "Pipedream.Quality.C143_faces",
    "Pipedream.Quality.C143_uniform_partial",
    "Pipedream.Quality.C143_end_stretches"
   ],
   "note": "Exact condition for a tank, the share after filling, the erasure after draining, the general condition for connected superjunctions and the inflated face flows are proved. Kept exactly for uniform non-reacting tables on a hydraulic model whose last step was itself the hidden one; the code violates the property otherwise."
  },
  {
   "property": "C144",
   "status": "partial",
   "theorems": [
    "Pipedream.Quality.C144_floor",
    "Pipedream.Quality.C144_stretch_excess",
    "Pipedream.Quality.C144_uniform_iff",
    "Pipedream.Quality.C144_tank",
    "Pipedream.Quality.C144_tank_run",
    "Pipedream.Quality.C144_above_exponential",
    "Pipedream.Quality.C144_converges",
    "Pipedream.Quality.C144_step_excess",
    "Pipedream.Quality.C144_floor_run",
    "Pipedream.Quality.C144_floor_exponential"
   ],
   "note": "Lower bound, closed tanks, comparison with and convergence to the exponential law are proved; partial because the end stretches of superlinks do not react, which is proved as an equivalence and a strict inequality."
  },
  {
   "property": "C145",
   "status": "partial",
   "theorems": [
    "Pipedream.Infiltration.C145_exists",
    "Pipedream.Infiltration.C145_unique",
    "Pipedream.Infiltration.C145_saturated_iff",
    "Pipedream.Infiltration.C145_step_partial",
    "Pipedream.Infiltration.C145_overshoot",
    "Pipedream.Infiltration.C145_run_partial"
   ],
   "note": "Proved: the law has exactly one solution; steps of elements not flagged as saturated, and of flagged ones unless ponding begins during the step, agree with it up to the tolerance, over wet periods of any length. Violated for flagged elements when ponding begins during the step (iff), with a lower bound on the excess. Dry steps are outside the law."
  },
  {
   "property": "C146",
   "status": "proved",
   "theorems": [
    "Pipedream.Infiltration.C146_infiltration",
    "Pipedream.Infiltration.C146_surface"
   ],
   "note": "One step from a common state with non-negative cumulative infiltration; numba class; water infiltrated plus on offer below 10^7 m."
  },
  {
   "property": "C147",
   "status": "partial",
   "theorems": [
    "Pipedream.Step.C147_builds",
    "Pipedream.Step.C147_round_orifice",
    "Pipedream.Step.C147_fixed",
    "Pipedream.Step.C147_kept_iff",
    "Pipedream.Step.C147_end_flow",
    "Pipedream.Step.C147_pipe_at_rest",
    "Pipedream.Step.C147_throttled",
    "Pipedream.Step.C147_heads",
    "Pipedream.Step.C147_not_kept",
    "Pipedream.Step.C147_saved",
    "Pipedream.Step.C147_flood_area",
    "Pipedream.Step.C147_controls_idle",
    "Pipedream.Step.C147_reported"
   ],
   "note": "False for given depths which do not fit the heads (C147_not_kept) and for models with round orifices (C147_round_orifice). Shown: exact criterion, what the end flows become, the effect on the next step, and the bound on heads for states which fit, with any controls (which move nothing in the hidden step)."
  },
  {
   "property": "C148",
   "status": "proved",
   "theorems": [
    "Pipedream.Step.C148_at_heads",
    "Pipedream.Step.C148_end_flows",
    "Pipedream.Step.C148_flows",
    "Pipedream.Step.C148_depths",
    "Pipedream.Step.C148_heads"
   ],
   "note": "Maximum principle for the assembled equations of a superlink of any length, for the reported end flows (clipped or not), link flows and inner depths (no bound active), and heads."
  },
  {
   "property": "C149",
   "status": "partial",
   "theorems": [
    "Pipedream.Step.C149_account",
    "Pipedream.Step.C149_dry_ends",
    "Pipedream.Step.C149_conserved_partial",
    "Pipedream.Step.C149_perched_down",
    "Pipedream.Step.C149_perched_up",
    "Pipedream.Step.C149_heads",
    "Pipedream.Step.C149_water_from_nothing",
    "Pipedream.Step.C149_fills_in_any_time"
   ],
   "note": "The code violates the property whenever a limit acts. Proved: the exact account of created and lost water for every step of a network without fixed heads (default end method), the signs, conservation iff no pipe end is raised (heads and interior depths off their limits), and a refuting network for all lists of step sizes."
  },
  {
   "property": "C15",
   "status": "proved",
   "theorems": [
    "Pipedream.Network.C15_monotone"
   ],
   "note": "Comparison principle of the M-matrix; also monotone in previous heads."
  },
  {
   "property": "C150",
   "status": "proved",
   "theorems": [
    "Pipedream.Step.C150_stays_symmetric",
    "Pipedream.Step.C150_built_symmetric",
    "Pipedream.Step.C150_parallel_pipes",
    "Pipedream.Step.C150_parallel_orifices",
    "Pipedream.Step.C150_parallel_weirs",
    "Pipedream.Step.C150_parallel_pumps"
   ],
   "note": "Equivariance of the whole step under relabelling (C108) turned into invariance of runs; parallel twins of each kind as special cases. Exact arithmetic, solver by specification."
  },
  {
   "property": "C151",
   "status": "partial",
   "theorems": [
    "Pipedream.Step.C151_marching",
    "Pipedream.Step.C151_end_method_ignored",
    "Pipedream.Step.C151_bc_refused",
    "Pipedream.Step.C151_bc_refused_base",
    "Pipedream.Step.C151_runs",
    "Pipedream.Step.C151_frozen",
    "Pipedream.Step.C151_water_lost",
    "Pipedream.Step.C151_heads_follow"
   ],
   "note": "The code violates the property for method and end_method: an unknown method is accepted and freezes the pipes (C151_runs, C151_frozen, C151_water_lost, C151_heads_follow), an unknown end_method means 'b'. C151_marching and C151_bc_refused are the parts which hold; the pure-Python class refuses other strings than the compiled one (C151_bc_refused_base)."
  },
  {
   "property": "C152",
   "status": "partial",
   "theorems": [
    "Pipedream.Step.C152_no_higher_partial",
    "Pipedream.Step.C152_no_lower_partial",
    "Pipedream.Step.C152_surfaces_partial",
    "Pipedream.Step.C152_perched",
    "Pipedream.Step.C152_constructed"
   ],
   "note": "Proved for one step from rest, of any length, for beds level at the pipe ends (end links of any slope excluded by Bed, see C14), with every pipe end at or below the water of its superjunction and no pump running: no head above the highest and none below the lowest level, and, where no depth is clipped, no surface inside a pipe either. Not true in general: a pipe end above the water throws the water of its last half link into the superjunction whatever the length of the step (C152_perched), and constructing a model with levels of at most 2 m can give a head of 5.5 m (C152_constructed)."
  },
  {
   "property": "C153",
   "status": "partial",
   "theorems": [
    "Pipedream.Step.C153_heads_partial",
    "Pipedream.Step.C153_state_partial",
    "Pipedream.Step.C153_jump"
   ],
   "note": "Proved for states which fit together (prescribed heads as they are, heads within limits, every pipe end with a free surface and with a depth which its head can produce at some flow, inner depths strictly within limits), first pass of a step, default end method. Not true in general: where a pipe ends above the water, every step however short raises the head by the same amount (C153_jump)."
  },
  {
   "property": "C154",
   "status": "partial",
   "theorems": [
    "Pipedream.Step.C154_account",
    "Pipedream.Step.C154_from_rest_partial",
    "Pipedream.Step.C154_speed_partial",
    "Pipedream.Step.C154_perched"
   ],
   "note": "Exact energy account of every unclipped step whose pipe ends are below water; from rest no energy is created and every link's kinetic energy is bounded by the potential energy of the levels. Missing: pipe ends above water, where the code violates the claim (C154_perched)."
  },
  {
   "property": "C155",
   "status": "proved",
   "theorems": [
    "Pipedream.Driver.C155_fixed",
    "Pipedream.Driver.C155_adaptive",
    "Pipedream.Driver.C155_sound",
    "Pipedream.Driver.C155_endless",
    "Pipedream.Driver.C155_no_estimate"
   ],
   "note": "Both documented loops, over abstract reliable hydraulics and over the whole-step model of every sound network (reliable_sound). C155_endless and C155_no_estimate show why a finite end time and two subdivisions are assumed."
  },
  {
   "property": "C156",
   "status": "partial",
   "theorems": [
    "Pipedream.Step.C156_heads_partial",
    "Pipedream.Step.C156_depths_partial",
    "Pipedream.Step.C156_held_back",
    "Pipedream.Step.C156_not_kept",
    "Pipedream.Step.Gentle.still"
   ],
   "note": "Proved for default end method: heads (clipped too) and, if no limit is reached, depths, wherever the receiving water is gentle (still, or Courant-type condition inside a pipe, or balanced by the end loss at an end). Otherwise the code violates it: proved in general and on a concrete model."
  },
  {
   "property": "C157",
   "status": "proved",
   "theorems": [
    "Pipedream.Step.C157_step",
    "Pipedream.Step.C157_run",
    "Pipedream.Step.C157_given",
    "Pipedream.Step.C157_unreached",
    "Pipedream.Step.C157_run_unreached",
    "Pipedream.Step.C157_succeeds"
   ],
   "note": "Runs with missing limits are the runs with all sufficiently large limits; limits not reached have no effect; sound models succeed whatever limits they have."
  },
  {
   "property": "C158",
   "status": "partial",
   "theorems": [
    "Pipedream.Exit.C158_meaning",
    "Pipedream.Exit.C158_solver",
    "Pipedream.Exit.C158_exists_partial",
    "Pipedream.Exit.C158_two",
    "Pipedream.Exit.C158_none"
   ],
   "note": "Zeros of the residual are the depths of uniform flow; they exist up to the flow of the full pipe. Not unique just above it, absent further above, for reversed flow and for pipes that do not fall."
  },
  {
   "property": "C159",
   "status": "proved",
   "theorems": [
    "Pipedream.Step.C159_account",
    "Pipedream.Step.C159_conserved",
    "Pipedream.Step.C159_no_controls",
    "Pipedream.Step.C159_free",
    "Pipedream.Step.C159_inflow_ignored",
    "Pipedream.Step.C159_inflow_ignored_run",
    "Pipedream.Step.C159_filled"
   ],
   "note": "All networks, default end method 'b'. The account with limits acting is C159_account; C159_conserved is its case without limits; C159_free reduces it to C149/C16 for networks without fixed heads."
  },
  {
   "property": "C16",
   "status": "proved",
   "theorems": [
    "Pipedream.Step.C16_volume_conservation",
    "Pipedream.Step.C16_volume_change"
   ],
   "note": "Default end method 'b'; lateral junction inflow included."
  },
  {
   "property": "C160",
   "status": "partial",
   "theorems": [
    "Pipedream.Step.C160_fixed_point_iff",
    "Pipedream.Step.C160_solution_kept",
    "Pipedream.Step.C160_kept_solution",
    "Pipedream.Step.C160_last_pass",
    "Pipedream.Step.C160_converged",
    "Pipedream.Step.C160_not_iterated",
    "Pipedream.Step.C160_fixed_heads",
    "Pipedream.Step.C160_friction_ignored",
    "Pipedream.Step.C160_passes",
    "Pipedream.Step.C160_dry_crest",
    "Pipedream.Step.C160_passes_converge",
    "Pipedream.Step.C160_wide_weirs",
    "Pipedream.Step.C160_passes_diverge",
    "Pipedream.Step.C160_vessels_rate",
    "Pipedream.Step.C160_vessels_converge"
   ],
   "note": "The fixed points of the iteration are exactly the solutions of the fully implicit equations (any network, state away from limits). The last sentence fails: the loop looks at heads only, and a channel between fixed heads is never iterated (witness); over a basin with an overflow the passes converge up to an exact size of the step and diverge beyond; over two vessels joined by a drowned orifice they converge whatever the step, the error of the logarithm halving at least. Convergence for whole networks is not claimed."
  },
  {
   "property": "C161",
   "status": "partial",
   "theorems": [
    "Pipedream.Step.C161_pump_iff",
    "Pipedream.Step.C161_weir_iff",
    "Pipedream.Step.C161_orifice_iff",
    "Pipedream.Step.C161_pump",
    "Pipedream.Step.C161_weir_free",
    "Pipedream.Step.C161_weir_drowned",
    "Pipedream.Step.C161_weir_less",
    "Pipedream.Step.C161_weir_passes_less",
    "Pipedream.Step.C161_orifice",
    "Pipedream.Step.C161_reported",
    "Pipedream.Step.C161_lowered_weir_passes_less"
   ],
   "note": "The three iff theorems reduce the comparison of two solved networks to the two relations at one set of heads, for any network and any two settings. Proved from them: pumps below shut-off head, weirs in free flow (lowering helps) and drowned (no effect), submerged orifices. Refuted where the lowered crest puts a weir into the drowned regime: less water passes exactly if the receiving water rises in the step, with a concrete network where the source ends higher."
  },
  {
   "property": "C162",
   "status": "partial",
   "theorems": [
    "Pipedream.Control.C162_head",
    "Pipedream.Control.C162_lower_side",
    "Pipedream.Control.C162_opening",
    "Pipedream.Control.C162_limited",
    "Pipedream.Control.C162_crown_iff",
    "Pipedream.Control.C162_crown_jump",
    "Pipedream.Control.C162_fuller_tank_discharges_less"
   ],
   "note": "Proved: monotone in the source head on either side of the crown, antitone in the receiving head, monotone in the opening for areas proportional to it, and kept by the volume limit. Refuted across the crown, with the exact rise needed to make up for the drop and the size of the drop."
  },
  {
   "property": "C163",
   "status": "proved",
   "theorems": [
    "Pipedream.Kalman.C163_residual",
    "Pipedream.Kalman.C163_single",
    "Pipedream.Kalman.C163_several",
    "Pipedream.Kalman.C163_best",
    "Pipedream.Kalman.C163_uncorrelated",
    "Pipedream.Kalman.C163_filter"
   ],
   "note": "Best compromise: misfit of the update is at most that of every state. Residual identities give the statements about one and several measurements; the depth limits are those of the solve that follows. Fixed heads and the transition used for the covariance are the subject of C70 and C73."
  },
  {
   "property": "C164",
   "status": "partial",
   "theorems": [
    "Pipedream.Step.C164_link_partial",
    "Pipedream.Step.C164_junction_partial",
    "Pipedream.Step.C164_superjunction_partial"
   ],
   "note": "Proved from states whose end depths can be reached from the heads (as in C153) and which lie strictly within their limits. Missing: states where a pipe ends above the water, for which C153_jump shows that a short step moves heads by metres."
  },
  {
   "property": "C165",
   "status": "partial",
   "theorems": [
    "Pipedream.Step.C165_upstream",
    "Pipedream.Step.C165_downstream",
    "Pipedream.Step.C165_iff",
    "Pipedream.Step.C165_run",
    "Pipedream.Step.C165_two_steps",
    "Pipedream.Step.C165_alternates",
    "Pipedream.Step.C165_mean",
    "Pipedream.Step.C165_short",
    "Pipedream.Step.C165_leap"
   ],
   "note": "The code uses old flow times new flow. C165_upstream/C165_downstream give the loss of every step, C165_iff when it is the stated one, C165_leap refutes the property; missing is only what the code violates."
  },
  {
   "property": "C166",
   "status": "partial",
   "theorems": [
    "Pipedream.Control.C166_weir",
    "Pipedream.Control.C166_orifice_iff",
    "Pipedream.Control.C166_oneway_iff",
    "Pipedream.Control.C166_pump_iff"
   ],
   "note": "Weirs: proved. Orifices (two-way and one-way) and pumps: exact sets of discontinuity (iff); the jumps of the orifice at crown and at equal partial levels violate the property."
  },
  {
   "property": "C167",
   "status": "partial",
   "theorems": [
    "Pipedream.Step.C167_call",
    "Pipedream.Step.C167_run",
    "Pipedream.Step.C167_run_back",
    "Pipedream.Step.C167_no_flow",
    "Pipedream.Step.C167_round_raises",
    "Pipedream.Step.C167_floodplain_flows"
   ],
   "note": "Proved for all runs for pumps, weirs below their gates and orifices of the other shapes (both directions); false for shut circular and elliptical orifices (every step raises) and floodplain orifices (they discharge)."
  },
  {
   "property": "C168",
   "status": "partial",
   "theorems": [
    "Pipedream.Kalman.C168_update",
    "Pipedream.Kalman.C168_filter_partial",
    "Pipedream.Kalman.C168_predicts_twice",
    "Pipedream.Kalman.C168_two_calls_differ"
   ],
   "note": "The update has the property (C168_update). Two calls of kalman_filter in one step do not: the covariance is predicted again in each call (C168_predicts_twice, witness C168_two_calls_differ); they agree with the joint call when that changes nothing (C168_filter_partial)."
  },
  {
   "property": "C169",
   "status": "partial",
   "theorems": [
    "Pipedream.Step.C169_call",
    "Pipedream.Step.C169_run",
    "Pipedream.Step.C169_total",
    "Pipedream.Step.C169_limited"
   ],
   "note": "Proved for every call and every run in which no orifice flow is cut by the volume limit and the pumps work within their curves; where the limit binds the property is false (C169_limited)."
  },
  {
   "property": "C17",
   "status": "proved",
   "theorems": [
    "Pipedream.Link.C17_friction_nonneg",
    "Pipedream.Link.C17_friction_even",
    "Pipedream.Link.C17_friction_total",
    "Pipedream.Link.C17_b_dominates",
    "Pipedream.Link.C17_couplings_nonpos",
    "Pipedream.Link.C17_sigma_range",
    "Pipedream.Link.C17_darcy_weisbach_at_rest_raises"
   ],
   "note": "Friction law as a partial function: Darcy-Weisbach with Q=0 raises ZeroDivisionError (C17_darcy_weisbach_at_rest_raises)."
  },
  {
   "property": "C170",
   "status": "proved",
   "theorems": [
    "Pipedream.Quality.C170_step",
    "Pipedream.Quality.C170_stable",
    "Pipedream.Quality.C170_start"
   ],
   "note": "Hypotheses as C116, nonnegative reaction rates (part of Physical)."
  },
  {
   "property": "C171",
   "status": "proved",
   "theorems": [
    "Pipedream.Quality.C171_error",
    "Pipedream.Quality.C171_converges"
   ],
   "note": "The exact solution and a bound for the variation of its rates are given; every step balances water (the code's imports need not satisfy it, see C78); default limits 0 and infinity, nonnegative concentrations."
  },
  {
   "property": "C172",
   "status": "partial",
   "theorems": [
    "Pipedream.Step.C172_documented_iff",
    "Pipedream.Step.C172_surface",
    "Pipedream.Step.C172_energy_iff",
    "Pipedream.Step.C172_no_rise",
    "Pipedream.Step.C172_energy_rises"
   ],
   "note": "Violated: the code's balance drops (u_{I+1}-u_I) Q_i. Proved: the documented balance holds exactly where that product vanishes; in steady flow without lateral inflow the surface falls by the losses and never rises along the flow; exact criterion for the energy line; witness in which it rises."
  },
  {
   "property": "C173",
   "status": "partial",
   "theorems": [
    "Pipedream.Step.C173_inlet_iff",
    "Pipedream.Step.C173_outlet_iff",
    "Pipedream.Step.C173_structure_iff",
    "Pipedream.Step.C173_inverse_square",
    "Pipedream.Step.C173_base",
    "Pipedream.Step.C173_kept"
   ],
   "note": "Violated by the numba class, exact criteria proved for inlets, outlets and structures in steady states; 1/c^2 gives discharge coefficient c; the pure-Python class's end coefficient follows the law at unchanged flow. The _kept theorems replace the steady equations by the hypothesis that a pass of the step gives the state back."
  },
  {
   "property": "C174",
   "status": "proved",
   "theorems": [
    "Pipedream.Quality.C174_rate",
    "Pipedream.Quality.C174_forgets"
   ],
   "note": "Explicit rate and uniform limit; residence field checked on the Tank network."
  },
  {
   "property": "C175",
   "status": "proved",
   "theorems": [
    "Pipedream.Quality.C175_exists",
    "Pipedream.Quality.C175_unique",
    "Pipedream.Quality.C175_converges"
   ],
   "note": "Steady equations stated without the step size; existence by a contraction argument on the steps themselves."
  },
  {
   "property": "C176",
   "status": "partial",
   "theorems": [
    "Pipedream.Step.C176_manning",
    "Pipedream.Step.C176_hazen_williams",
    "Pipedream.Step.C176_darcy_weisbach_iff",
    "Pipedream.Step.C176_uniform",
    "Pipedream.Step.C176_kept",
    "Pipedream.Step.C176_kept_darcy_iff"
   ],
   "note": "Manning and Hazen-Williams proved exactly, for all steady states; the Darcy-Weisbach branch deviates by its rounded constant (proved iff). The _kept theorems replace the steady equations by the hypothesis that a pass of the step gives the state back."
  },
  {
   "property": "C177",
   "status": "partial",
   "theorems": [
    "Pipedream.Link.C177_grows",
    "Pipedream.Link.C177_turbulent",
    "Pipedream.Link.C177_slow_flow",
    "Pipedream.Link.C177_not_monotone"
   ],
   "note": "Proved for Manning and Hazen-Williams and for turbulent Darcy-Weisbach flow; violated by slow Darcy-Weisbach flow (division by zero, unbounded loss, not monotone)."
  },
  {
   "property": "C178",
   "status": "partial",
   "theorems": [
    "Pipedream.Step.C178_continuous_partial",
    "Pipedream.Step.C178_controls",
    "Pipedream.Step.C178_call_partial",
    "Pipedream.Step.C178_run_partial",
    "Pipedream.Step.C178_sections",
    "Pipedream.Step.C178_storages",
    "Pipedream.Step.C178_openings",
    "Pipedream.Step.C178_invert_jump",
    "Pipedream.Step.C178_orifice_jump"
   ],
   "note": "Continuity of a whole step, of a call with its own geometry and of whole runs is proved away from the thresholds; at pipe inverts and resting orifices the code jumps, which is proved."
  },
  {
   "property": "C179",
   "status": "partial",
   "theorems": [
    "Pipedream.Step.C179_superlink",
    "Pipedream.Step.C179_power",
    "Pipedream.Step.C179_rest",
    "Pipedream.Step.C179_step",
    "Pipedream.Step.C179_rest_partial",
    "Pipedream.Step.C179_perpetual"
   ],
   "note": "Superlinks and weirs of every steady network left to itself are proved at rest; orifices between equal levels are not, which is proved by a network that circulates for ever."
  },
  {
   "property": "C18",
   "status": "proved",
   "theorems": [
    "Pipedream.Link.C18_uIk_between",
    "Pipedream.Link.C18_uIp1k_between",
    "Pipedream.Link.C18_shared_junction",
    "Pipedream.Link.C18_dry_link"
   ],
   "note": ""
  },
  {
   "property": "C180",
   "status": "proved",
   "theorems": [
    "Pipedream.Step.C180_superlink",
    "Pipedream.Step.C180_flows",
    "Pipedream.Step.C180_heads",
    "Pipedream.Step.C180_depths",
    "Pipedream.Step.C180_kept"
   ],
   "note": "Conditions are part of the statement. The _kept theorems replace the steady equations by the hypothesis that a pass of the step gives the state back."
  },
  {
   "property": "C181",
   "status": "proved",
   "theorems": [
    "Pipedream.Step.C181_heads",
    "Pipedream.Step.C181_depths",
    "Pipedream.Step.C181_kept"
   ],
   "note": "Comparison of two steady states by the negative part of their head difference, which is constant along every superlink; depths are compared from the upstream end where the flow falls and from the downstream end where it rises. The _kept theorems replace the steady equations by the hypothesis that a pass of the step gives the state back."
  },
  {
   "property": "C182",
   "status": "partial",
   "theorems": [
    "Pipedream.Geometry.C182_area",
    "Pipedream.Geometry.C182_perimeter",
    "Pipedream.Geometry.C182_perimeter_wet",
    "Pipedream.Geometry.C182_radius",
    "Pipedream.Geometry.C182_width_partial",
    "Pipedream.Geometry.C182_slot_iff"
   ],
   "note": "Area is continuous at all depths; perimeter, radius and (except where a pipe or closed rectangle just becomes full) top width wherever there is water. At that depth the top width jumps to that of the slot (C182_slot_iff)."
  },
  {
   "property": "C183",
   "status": "partial",
   "theorems": [
    "Pipedream.Geometry.C183_channels_partial",
    "Pipedream.Geometry.C183_normal_unique",
    "Pipedream.Geometry.C183_pipe",
    "Pipedream.Geometry.C183_banks"
   ],
   "note": "Proved for rectangular, triangular, trapezoidal, parabolic and wide channels, with uniqueness of the normal depth. Not true for round pipes (C183_pipe, as in reality) and for compound sections (C183_banks)."
  },
  {
   "property": "C184",
   "status": "proved",
   "theorems": [
    "Pipedream.Infiltration.C184_bounds",
    "Pipedream.Infiltration.C184_declines",
    "Pipedream.Infiltration.C184_spell"
   ],
   "note": "Numba class; water infiltrated plus on offer below 10^7 m; dry steps are outside the statement. The comparison of two steps is for equal step sizes."
  },
  {
   "property": "C185",
   "status": "proved",
   "theorems": [
    "Pipedream.Step.C185_exists",
    "Pipedream.Step.C185_balanced",
    "Pipedream.Step.C185_iff",
    "Pipedream.Step.C185_kept"
   ],
   "note": "Steadiness in the sense of C100; sections given; the bounds on heads and depths that the solver enforces are not part of the statement. The _kept theorems replace the steady equations by the hypothesis that a pass of the step gives the state back."
  },
  {
   "property": "C186",
   "status": "proved",
   "theorems": [
    "Pipedream.Step.C186_heads",
    "Pipedream.Step.C186_unique",
    "Pipedream.Step.C186_flows",
    "Pipedream.Step.C186_kept"
   ],
   "note": "Settings equal in both states; orifices on the same side of the crown (the orifice law jumps there, C166) and not throttled by the volume limit. Existence with controls is not claimed. The _kept theorems replace the steady equations by the hypothesis that a pass of the step gives the state back."
  },
  {
   "property": "C187",
   "status": "partial",
   "theorems": [
    "Pipedream.Topology.C187_offset_iff",
    "Pipedream.Topology.C187_inverts_iff",
    "Pipedream.Step.C187_heads",
    "Pipedream.Step.C187_rest_iff",
    "Pipedream.Step.C187_assign",
    "Pipedream.Step.C187_assigned_level_iff"
   ],
   "note": "Code and documentation disagree: what is reported is the elevation, and assignments do not recompute slopes and pipe ends. Proved: exactly when the claim holds, and what happens otherwise."
  },
  {
   "property": "C188",
   "status": "proved",
   "theorems": [
    "Pipedream.Control.C188_range",
    "Pipedream.Control.C188_above",
    "Pipedream.Step.C188_sump",
    "Pipedream.Step.C188_restless",
    "Pipedream.Step.C188_moves"
   ],
   "note": "The starting level is z_inv + z_p; the discharge at exactly the starting level is itself not attained if the lift there lies within the limits (C188_above)."
  },
  {
   "property": "C189",
   "status": "partial",
   "theorems": [
    "Pipedream.Step.C189_fills",
    "Pipedream.Step.C189_rate",
    "Pipedream.Step.C189_settles",
    "Pipedream.Step.C189_any_step",
    "Pipedream.Step.C189_unsettled"
   ],
   "note": "Settling from every first level is proved for every shape of weir: for all steps if the slanted sides carry at most half of the inflow (rectangular weirs with their geometric rate), otherwise for steps up to an exact size; refuted beyond that size."
  },
  {
   "property": "C19",
   "status": "proved",
   "theorems": [
    "Pipedream.Superlink.C19_flow_monotone_in_heads",
    "Pipedream.Superlink.C19_step"
   ],
   "note": ""
  },
  {
   "property": "C190",
   "status": "proved",
   "theorems": [
    "Pipedream.Step.C190_oneway",
    "Pipedream.Step.C190_rate",
    "Pipedream.Step.C190_settles"
   ],
   "note": "Every step size; the volume limit of the orifice is assumed not to bind."
  },
  {
   "property": "C191",
   "status": "partial",
   "theorems": [
    "Pipedream.Geometry.C191_area",
    "Pipedream.Geometry.C191_elliptical_area",
    "Pipedream.Control.C191_discharge",
    "Pipedream.Control.C191_heights",
    "Pipedream.Control.C191_elliptical"
   ],
   "note": "Proved for all shapes but elliptical and floodplain (no area branch) when the height used by the flow law is at least the height of the section; elliptical ones only when full. False otherwise: opening further strictly reduces the flow (C191_elliptical, C191_heights)."
  },
  {
   "property": "C192",
   "status": "proved",
   "theorems": [
    "Pipedream.Step.C192_ceiling",
    "Pipedream.Step.C192_floor",
    "Pipedream.Step.C192_stops",
    "Pipedream.Step.C192_starts",
    "Pipedream.Step.C192_settles"
   ],
   "note": "A sump with a constant surface and inflow drained by one pump to a held level, anywhere in a network, over runs of any length: ceiling, floor, endless stopping and starting if the pump masters the inflow at its starting level, and one-sided convergence for any step if the inflow is carried within the range and the exponent is at least one."
  },
  {
   "property": "C193",
   "status": "partial",
   "theorems": [
    "Pipedream.Topology.C193_positions_partial",
    "Pipedream.Topology.C193_generated",
    "Pipedream.Topology.C193_turned"
   ],
   "note": "Proved for tables in which the superlinks follow one another in the order of the superlink table, generated ones in particular. Fails for other orders: superlinks exchange positions (C193_turned, iff)."
  },
  {
   "property": "C194",
   "status": "proved",
   "theorems": [
    "Pipedream.Step.C194_oneway",
    "Pipedream.Step.C194_rate",
    "Pipedream.Step.C194_levels_out",
    "Pipedream.Step.C194_valve"
   ],
   "note": "The orifice is drowned (common level above its crown, lower level above its centre); surfaces constant; flow not limited by the volume."
  },
  {
   "property": "C195",
   "status": "proved",
   "theorems": [
    "Pipedream.Kalman.C195_order",
    "Pipedream.Kalman.C195_measured",
    "Pipedream.Kalman.C195_single",
    "Pipedream.Kalman.C195_more",
    "Pipedream.Kalman.C195_data",
    "Pipedream.Kalman.C195_run"
   ],
   "note": "For covariance matrices (symmetric, positive semidefinite) as inputs."
  },
  {
   "property": "C196",
   "status": "partial",
   "theorems": [
    "Pipedream.Quality.C196_uniform_iff",
    "Pipedream.Quality.C196_default_iff",
    "Pipedream.Quality.C196_tank_iff",
    "Pipedream.Quality.C196_tank_rises",
    "Pipedream.Quality.C196_tank_lost",
    "Pipedream.Quality.C196_tank_singular",
    "Pipedream.Quality.C196_tank_partial"
   ],
   "note": "The code violates it: withdrawals are multiplied with the prescribed inflow concentration (default 0). Proved exactly when a uniform concentration survives (C196_uniform_iff, C196_default_iff) and what a tank does (rises by V/(V-drawn), lost, or no solution). C196_tank_partial: right if the caller prescribes the tank's concentration."
  },
  {
   "property": "C197",
   "status": "proved",
   "theorems": [
    "Pipedream.Step.C197_still",
    "Pipedream.Step.C197_still_all",
    "Pipedream.Step.C197_still_link",
    "Pipedream.Step.C197_downstream",
    "Pipedream.Step.C197_running",
    "Pipedream.Network.C197_defect",
    "Pipedream.Network.C197_mutual",
    "Pipedream.Network.C197_pair",
    "Pipedream.Superlink.C197_link"
   ],
   "note": "Superlink, network and step level; the general identity for any network is C197_defect, running water C197_running."
  },
  {
   "property": "C198",
   "status": "proved",
   "theorems": [
    "Pipedream.Step.C198_large",
    "Pipedream.Step.C198_step",
    "Pipedream.Step.C198_basin",
    "Pipedream.Network.C198_hold"
   ],
   "note": "Explicit bound C198_step (difference times both areas is at most dt^2 times what reaches the others times the imbalance), limit C198_large; geometry and coefficients other than the area are those of the step."
  },
  {
   "property": "C199",
   "status": "partial",
   "theorems": [
    "Pipedream.Kalman.C199_number",
    "Pipedream.Kalman.C199_vector",
    "Pipedream.Kalman.C199_matrix_iff",
    "Pipedream.Kalman.C199_column",
    "Pipedream.Kalman.C199_other",
    "Pipedream.Kalman.C199_single_signal",
    "Pipedream.Kalman.C199_signals_iff",
    "Pipedream.Kalman.C199_fits",
    "Pipedream.Kalman.C199_accepted",
    "Pipedream.Kalman.C199_observations_iff",
    "Pipedream.Kalman.C199_documented",
    "Pipedream.Kalman.C199_documented_iff",
    "Pipedream.Kalman.C199_one_for_all"
   ],
   "note": "False for the code: numbers, vectors and matrices with other than one column are used as given (iff), but a matrix with one column is reduced to its first entry, so a filter with one noise signal has no initial covariance matrix; fitting shapes are accepted (C199_fits, C199_accepted), the documented ones only for a = M, b = M (iff theorems); the shapes documented at kalman_filter give an M x M right-hand side. np.linalg.inv enters by its shape rule only."
  },
  {
   "property": "C20",
   "status": "partial",
   "theorems": [
    "Pipedream.Control.C20_direction",
    "Pipedream.Control.C20_equal_heads_partial",
    "Pipedream.Control.C20_equal_heads_flow",
    "Pipedream.Step.C20_step"
   ],
   "note": "Direction proved for all inputs; zero at equal heads proved outside the weir regime, refuted inside it by C20_equal_heads_flow."
  },
  {
   "property": "C200",
   "status": "proved",
   "theorems": [
    "Pipedream.Driver.C200_loop",
    "Pipedream.Driver.C200_at_once",
    "Pipedream.Driver.C200_limit",
    "Pipedream.Driver.C200_error",
    "Pipedream.Driver.C200_safe",
    "Pipedream.Driver.C200_constant",
    "Pipedream.Driver.C200_longest"
   ],
   "note": "Hypotheses: error of a step = phi dt^k (phi > 0), positive tolerance and safety factor, none of the limits reached. h0100, h0211, h0312, h0321 reach the target step at once, h211, h312, h321 in the limit; the error aimed at is tol s^(k/beta), at most tol for s <= 1. At max_dt with errors within the tolerance the filter stays there."
  },
  {
   "property": "C201",
   "status": "proved",
   "theorems": [
    "Pipedream.Driver.C201_growth",
    "Pipedream.Driver.C201_reaches",
    "Pipedream.Driver.C201_accepted",
    "Pipedream.Driver.C201_run",
    "Pipedream.Driver.C201_steady",
    "Pipedream.Driver.C201_minus_one_mm",
    "Pipedream.Driver.mean_documented"
   ],
   "note": "hydraulics abstract in C201_accepted/_run (any steps that change nothing up to D); C201_steady discharges that for sound models in a steady state (C100). Filters h0321 and h321 (not means of the last steps) are not covered; the others are (mean_documented)."
  },
  {
   "property": "C202",
   "status": "proved",
   "theorems": [
    "Pipedream.Step.C202_heads",
    "Pipedream.Step.C202_pipes",
    "Pipedream.Step.C202_add",
    "Pipedream.Step.C202_scale"
   ],
   "note": "End method b (the default). C202_heads is about the heads solved for; C202_pipes about the reported heads, end flows, inner flows and depths when none of the four steps reaches a limit (Free). The reported flows of orifices, weirs and pumps are computed from the new heads by the nonlinear laws after the solve, so they are not weighted sums and the theorem does not claim it."
  },
  {
   "property": "C203",
   "status": "partial",
   "theorems": [
    "Pipedream.Record.C203_tables_partial",
    "Pipedream.Record.C203_asked_iff",
    "Pipedream.Record.C203_dropped",
    "Pipedream.Record.C203_violated",
    "Pipedream.Record.C203_default"
   ],
   "note": "Holds for the nine default variables as far as the model has them, and for the plain call (C203_default). Violated for every other variable: exactly which become tables is C203_asked_iff; unsaved variables are dropped silently (C203_dropped), saved ones outside the default list stay dicts (C203_violated)."
  },
  {
   "property": "C204",
   "status": "proved",
   "theorems": [
    "Pipedream.Step.C204_still",
    "Pipedream.Step.C204_errors",
    "Pipedream.Network.C204_bound",
    "Pipedream.Network.C204_peak",
    "Pipedream.Network.C204_overfall_iff"
   ],
   "note": "Network level for all networks in which lifting all heads alike draws no water (C204_bound, C204_peak); such are the networks of standing water (C204_still, C204_errors). C204_overfall_iff shows why the state must be still: at a free overfall the lower superjunction rises more exactly if the weir passes more than its area per step."
  },
  {
   "property": "C205",
   "status": "proved",
   "theorems": [
    "Pipedream.Step.C205_call",
    "Pipedream.Step.C205_run",
    "Pipedream.Step.C205_built",
    "Pipedream.Step.C205_total",
    "Pipedream.Step.C205_walls",
    "Pipedream.Step.secShare_wide",
    "Pipedream.Step.secShare_table"
   ],
   "note": "Proved for every history of calls of the object model, from construction, with the division stated as a separate relation (Lanes). The lanes' section must be an exact share: shown for wide channels and for tabulated sections; C205_walls shows that open rectangular sections are not divisible."
  },
  {
   "property": "C206",
   "status": "partial",
   "theorems": [
    "Pipedream.Config.C206_accepts_iff",
    "Pipedream.Config.C206_levels",
    "Pipedream.Config.C206_again",
    "Pipedream.Config.C206_all_iff",
    "Pipedream.Config.C206_tables",
    "Pipedream.Config.C206_unused_matters",
    "Pipedream.Config.C206_documented_refused",
    "Pipedream.Config.C206_whole_numbers_refused",
    "Pipedream.Config.C206_points_ignored",
    "Pipedream.Config.C206_vert_points_iff",
    "Pipedream.Config.C206_written_iff",
    "Pipedream.Config.C206_base_iff",
    "Pipedream.Config.C206_base_documented",
    "Pipedream.Config.C206_base_refuses_own",
    "Pipedream.Config.C206_base_refuses_read",
    "Pipedream.Config.C206_values",
    "Pipedream.Config.C206_dictionary"
   ],
   "note": "Exact conditions for acceptance, what is sampled, what the numbers of points do and what becomes of the user's dictionary, for all dictionaries. The property as stated is false: the documented form is refused, the documented numbers of points are ignored, the user's dictionary is written to, and a dictionary once read is refused by the pure-Python class."
  },
  {
   "property": "C207",
   "status": "proved",
   "theorems": [
    "Pipedream.Infiltration.C207_step",
    "Pipedream.Infiltration.C207_returns",
    "Pipedream.Infiltration.C207_returns_iff",
    "Pipedream.Infiltration.C207_run",
    "Pipedream.Infiltration.C207_run_iff",
    "Pipedream.Infiltration.C207_initial",
    "Pipedream.Infiltration.C207_independent",
    "Pipedream.Infiltration.C207_reorder",
    "Pipedream.Infiltration.C207_weather"
   ],
   "note": "stepA/runA model the code's masks (np.flatnonzero selections and write-backs, the nested selection of case 3) literally; C207_step/C207_run: each element follows the one-element model; C207_returns_iff/C207_run_iff: the object returns exactly if every element does; independence, reordering and completion follow."
  },
  {
   "property": "C208",
   "status": "partial",
   "theorems": [
    "Pipedream.Base.C208_cannot_be_built",
    "Pipedream.Base.C208_configure_iff",
    "Pipedream.Base.C208_values",
    "Pipedream.Base.C208_returns_iff",
    "Pipedream.Base.C208_order",
    "Pipedream.Base.C208_rowwise",
    "Pipedream.Base.C208_inner_transect",
    "Pipedream.Base.C208_orifices_iff",
    "Pipedream.Base.C208_link_formulas",
    "Pipedream.Base.C208_class_iff",
    "Pipedream.Base.C208_unknown"
   ],
   "note": "The code violates it: C208_cannot_be_built (AttributeError for every network). For the repaired attribute: groups (C208_configure_iff), values of every link (C208_values), exact condition for returning (C208_returns_iff), independence of set order (C208_order), row-wise classes (C208_rowwise), the KeyError for transects used only inside superlinks (C208_inner_transect), and orifices: computed exactly if all have one shape (C208_orifices_iff)."
  },
  {
   "property": "C209",
   "status": "proved",
   "theorems": [
    "Pipedream.Sweep.C209_equations",
    "Pipedream.Sweep.C209_same",
    "Pipedream.Sweep.C209_advection_matters",
    "Pipedream.Step.C209_pass",
    "Pipedream.Step.C209_steady"
   ],
   "note": "Algebraic refinement of the two systems, applied to a pass of the solver and to steady flow; C209_advection_matters shows the advection condition is needed."
  },
  {
   "property": "C21",
   "status": "proved",
   "theorems": [
    "Pipedream.Control.C21_oneway"
   ],
   "note": ""
  },
  {
   "property": "C210",
   "status": "partial",
   "theorems": [
    "Pipedream.Infiltration.C210_account",
    "Pipedream.Infiltration.C210_balanced_iff",
    "Pipedream.Infiltration.C210_pond",
    "Pipedream.Infiltration.C210_soaked",
    "Pipedream.Infiltration.C210_twice",
    "Pipedream.Infiltration.C210_dry",
    "Pipedream.Infiltration.C210_dry_limit",
    "Pipedream.Infiltration.C210_object"
   ],
   "note": "The property fails; what holds is the exact account with its surplus (C210_account), the condition for balance (C210_balanced_iff) and the consequences for ponds. Nothing is missing from the account itself."
  },
  {
   "property": "C211",
   "status": "proved",
   "theorems": [
    "Pipedream.Geometry.C211_area",
    "Pipedream.Geometry.C211_width",
    "Pipedream.Geometry.C211_perimeter",
    "Pipedream.Geometry.C211_tables",
    "Pipedream.Geometry.C211_link",
    "Pipedream.Geometry.C211_refined"
   ],
   "note": "Stations strictly increasing (a vertical wall is not a graph); any number of pools. C211_tables joins this to the reading of the dictionary (C206)."
  },
  {
   "property": "C212",
   "status": "partial",
   "theorems": [
    "Pipedream.Geometry.C212_area",
    "Pipedream.Geometry.C212_force_main",
    "Pipedream.Geometry.C212_perimeter",
    "Pipedream.Geometry.C212_parabolic_area",
    "Pipedream.Geometry.C212_parabolic_perimeter"
   ],
   "note": "Proved for circular, rectangular, triangular, trapezoidal, elliptical (area; perimeter see C113), wide, force-main (area) and compound sections. False for parabolic sections, with exact size of the error; the wide section counts the bottom only."
  },
  {
   "property": "C213",
   "status": "partial",
   "theorems": [
    "Pipedream.Step.C213_step",
    "Pipedream.Step.C213_run",
    "Pipedream.Step.C213_excess",
    "Pipedream.Step.C213_straight",
    "Pipedream.Step.C213_widening",
    "Pipedream.Step.C213_sloping",
    "Pipedream.Step.C213_circle",
    "Pipedream.Step.C213_exact",
    "Pipedream.Step.C213_gains",
    "Pipedream.Step.C213_circular_run",
    "Pipedream.Step.C213_surcharged",
    "Pipedream.Step.C213_parabolic",
    "Pipedream.Step.C213_refuted",
    "Pipedream.Step.C213_surveyed"
   ],
   "note": "Account of one step and of runs of any length, with the exact difference per link as an integral over the section; exact for rectangular and wide sections below the crown. The claim is false for other sections (gains, losses and a concrete step proved). Not covered: elliptical sections, levels crossing the crown within a step, steps that clip, the other end methods. For surveyed sections the difference is bounded between two sampled levels."
  },
  {
   "property": "C214",
   "status": "proved",
   "theorems": [
    "Pipedream.Base.C214_mean",
    "Pipedream.Base.C214_flag",
    "Pipedream.Base.C214_unanimous",
    "Pipedream.Base.C214_one_fast",
    "Pipedream.Base.C214_reverse",
    "Pipedream.Base.C214_split",
    "Pipedream.Base.C214_undamped"
   ],
   "note": "Real arithmetic; the areas and widths are those of the pass."
  },
  {
   "property": "C215",
   "status": "proved",
   "theorems": [
    "Pipedream.Driver.C215_forgets",
    "Pipedream.Driver.C215_attempts",
    "Pipedream.Driver.C215_run",
    "Pipedream.Driver.C215_full_iff"
   ],
   "note": "Exact: pairs of calls after a rejection, counter of one call and of runs (iff). Model of the driver as in C40-C44."
  },
  {
   "property": "C22",
   "status": "partial",
   "theorems": [
    "Pipedream.Control.C22_orifice_dry",
    "Pipedream.Control.C22_orifice_closed",
    "Pipedream.Control.C22_weir_dry",
    "Pipedream.Control.C22_pump_dry",
    "Pipedream.Geometry.C22_closed_orifice_area_partial",
    "Pipedream.Geometry.C22_closed_orifice_raises",
    "Pipedream.Geometry.C22_orifice_area_range",
    "Pipedream.Geometry.C22_orifice_area_upper"
   ],
   "note": "Dry controls and closed orifices proved, except: closing a circular or elliptical orifice completely raises ZeroDivisionError (C22_closed_orifice_raises), and floodplain orifices have no area branch."
  },
  {
   "property": "C23",
   "status": "partial",
   "theorems": [
    "Pipedream.Control.C23_single",
    "Pipedream.Control.C23_joint_fails"
   ],
   "note": "Per-orifice bound proved; joint bound refuted (C23_joint_fails)."
  },
  {
   "property": "C24",
   "status": "proved",
   "theorems": [
    "Pipedream.Control.C24_orifice",
    "Pipedream.Control.C24_weir",
    "Pipedream.Control.C24_pump"
   ],
   "note": ""
  },
  {
   "property": "C25",
   "status": "proved",
   "theorems": [
    "Pipedream.Control.C25_direction",
    "Pipedream.Control.C25_free_overflow",
    "Pipedream.Control.C25_monotone",
    "Pipedream.Step.C25_step"
   ],
   "note": ""
  },
  {
   "property": "C26",
   "status": "proved",
   "theorems": [
    "Pipedream.Control.C26_pump",
    "Pipedream.Step.C26_step"
   ],
   "note": ""
  },
  {
   "property": "C27",
   "status": "partial",
   "theorems": [
    "Pipedream.Control.C27_orifice_at_rest",
    "Pipedream.Control.C27_weir_at_rest",
    "Pipedream.Control.C27_pump_at_rest",
    "Pipedream.Control.C27_converged_partial",
    "Pipedream.Control.C27_orifice_moved",
    "Pipedream.Control.C27_orifice_iff",
    "Pipedream.Control.C27_orifice_rest",
    "Pipedream.Control.C27_weir_moved",
    "Pipedream.Control.C27_weir_iff",
    "Pipedream.Control.C27_weir_rest",
    "Pipedream.Control.C27_pump_moved",
    "Pipedream.Control.C27_pump_iff",
    "Pipedream.Control.C27_pump_rest",
    "Pipedream.Step.C27_step"
   ],
   "note": "False in general; the exact relation is proved: at an orifice in the same regime before and after (and at weirs and pumps at unchanged heads) the flow moved is q|q|/|Q| with Q the previous and q the reported flow (pumps q^c/|Q|^(c-1)), so it equals the reported flow iff nothing flows or the flow has kept its size; from rest nothing is moved whatever the heads."
  },
  {
   "property": "C28",
   "status": "proved",
   "theorems": [
    "Pipedream.Geometry.C28_area"
   ],
   "note": "All ten shapes, all valid parameters."
  },
  {
   "property": "C29",
   "status": "partial",
   "theorems": [
    "Pipedream.Geometry.C29_width_partial",
    "Pipedream.Geometry.C29_parabolic_iff",
    "Pipedream.Geometry.C29_elliptical_iff"
   ],
   "note": "Proved for circular, rectangular, triangular, trapezoidal, wide and compound sections. False for parabolic (agrees only at 4/9 of the height) and elliptical sections (agrees only for circles or at mid height); both stated as iff theorems."
  },
  {
   "property": "C30",
   "status": "proved",
   "theorems": [
    "Pipedream.Geometry.C30_hydraulic_radius",
    "Pipedream.Geometry.C30_flat_bottom"
   ],
   "note": "All shapes; elliptical perimeter is taken as the stored value."
  },
  {
   "property": "C31",
   "status": "partial",
   "theorems": [
    "Pipedream.Geometry.C31_full_sections_partial",
    "Pipedream.Geometry.C31_rect_closed_perimeter"
   ],
   "note": "Circle, rectangle area, ellipse area proved. The perimeter of a full closed rectangle leaves out the ceiling: C31_rect_closed_perimeter."
  },
  {
   "property": "C32",
   "status": "proved",
   "theorems": [
    "Pipedream.Geometry.C32_floodplain_continuous",
    "Pipedream.Geometry.C32_floodplain_tiers",
    "Pipedream.Geometry.C32_floodplain_sides",
    "Pipedream.Geometry.C32_floodplain_dry"
   ],
   "note": ""
  },
  {
   "property": "C33",
   "status": "partial",
   "theorems": [
    "Pipedream.Interp.C33_functional_empty",
    "Pipedream.Interp.C33_functional_deriv",
    "Pipedream.Interp.C33_functional_mono",
    "Pipedream.Interp.C33_functional_strictMono",
    "Pipedream.Interp.C33_functional_growth",
    "Pipedream.Interp.C33_tabular_complement",
    "Pipedream.Interp.C33_tabular_iff",
    "Pipedream.Interp.C33_tabular_partial",
    "Pipedream.Interp.C33_tank_volume_zero",
    "Pipedream.Interp.C33_tank_witness",
    "Pipedream.Interp.C33_tabular_mono_partial",
    "Pipedream.Interp.C33_tabular_above",
    "Pipedream.Interp.C33_base_empty",
    "Pipedream.Interp.C33_base_deriv",
    "Pipedream.Interp.C33_base_below_iff",
    "Pipedream.Interp.C33_base_mono"
   ],
   "note": "Functional storages: fully proved. Tabular storages: the code integrates depth over area (cumtrapz arguments exchanged); exact complement proved, right iff volume is half of depth times area, tanks get volume 0 (witness)."
  },
  {
   "property": "C34",
   "status": "partial",
   "theorems": [
    "Pipedream.Interp.C34_range",
    "Pipedream.Interp.C34_monotone",
    "Pipedream.Interp.C34_nodes_partial",
    "Pipedream.Interp.C34_upper_nodes",
    "Pipedream.Interp.C34_bottom_iff",
    "Pipedream.Interp.C34_top",
    "Pipedream.Interp.C34_bottom_witness",
    "Pipedream.Interp.C34_continuous_iff",
    "Pipedream.Interp.C34_continuousAt"
   ],
   "note": "Range and monotonicity for all tables; nodes reproduced for all nodes but the lowest. Code defect: the lowest depth returns the smallest area of the table, right iff the first entry is the smallest (C34_bottom_iff, witness). The area is a continuous function of depth iff the first entry is the smallest and the last the largest (C34_continuous_iff)."
  },
  {
   "property": "C35",
   "status": "proved",
   "theorems": [
    "Pipedream.Infiltration.C35_step",
    "Pipedream.Infiltration.C35_run",
    "Pipedream.Infiltration.C35_no_nan",
    "Pipedream.Infiltration.inRange_initial",
    "Pipedream.Infiltration.C35_object"
   ],
   "note": "Ranges kept in every completed run, by induction over the history; a step from non-negative F never produces nan."
  },
  {
   "property": "C36",
   "status": "proved",
   "theorems": [
    "Pipedream.Infiltration.C36_supply",
    "Pipedream.Infiltration.C36_cumulative",
    "Pipedream.Infiltration.C36_lower"
   ],
   "note": "Upper bound for every completed step; also lower bound up to the solver tolerance and the accounting identity of F."
  },
  {
   "property": "C37",
   "status": "partial",
   "theorems": [
    "Pipedream.Infiltration.C37_balance_partial",
    "Pipedream.Infiltration.C37_excess_iff",
    "Pipedream.Infiltration.C37_drain_iff",
    "Pipedream.Infiltration.C37_creates_water",
    "Pipedream.Infiltration.surface_formula"
   ],
   "note": "The code adds (i-f) without dt and counts excess both as runoff and as ponding; proved exactly when the balance holds, and a family of steps creating water."
  },
  {
   "property": "C38",
   "status": "proved",
   "theorems": [
    "Pipedream.Interp.C38_sample_reproduced",
    "Pipedream.Interp.C38_between_samples",
    "Pipedream.Interp.C38_before",
    "Pipedream.Interp.C38_after",
    "Pipedream.Interp.C38_linear_chord",
    "Pipedream.Interp.C38_nearest",
    "Pipedream.Interp.C38_range",
    "Pipedream.Interp.C38_continuous"
   ],
   "note": "Both methods, every sorted record, every time."
  },
  {
   "property": "C39",
   "status": "proved",
   "theorems": [
    "Pipedream.Root.C39_in_interval",
    "Pipedream.Root.C39_only_inside",
    "Pipedream.Root.C39_raises_only",
    "Pipedream.Root.C39_converged",
    "Pipedream.Root.C39_near_root",
    "Pipedream.Root.C39_bisection_returns",
    "Pipedream.Root.C39_newton",
    "Pipedream.Root.C39_newton_raises_only",
    "Pipedream.Root.C39_returns",
    "Pipedream.Root.C39_bisection_iff"
   ],
   "note": "All functions, intervals, guesses, budgets. Returns within m(m+3)/2 iterations where m halvings cover the interval; with a zero derivative it returns exactly when the budget of halvings does."
  },
  {
   "property": "C40",
   "status": "proved",
   "theorems": [
    "Pipedream.Driver.C40_time",
    "Pipedream.Driver.C40_finite"
   ],
   "note": "Time after Simulation.step equals start time plus the accepted step; accepted step is dt/2^j, j<=retries, is the head of the step-size history, and passed the min_dt test whenever halved."
  },
  {
   "property": "C41",
   "status": "partial",
   "theorems": [
    "Pipedream.Driver.C41_no_trace",
    "Pipedream.Step.C41_history_free",
    "Pipedream.Step.C11_pass_no_stale",
    "Pipedream.Step.C41_same_switches_partial",
    "Pipedream.Step.C41_end_free_partial",
    "Pipedream.Step.C41_retry_partial",
    "Pipedream.Step.C41_retry_differs"
   ],
   "note": "False as stated: the end switches are neither saved nor restored, so a retried step can differ from the same step made directly (C41_retry_differs). Holds for hydraulics whose results depend only on the saved arrays (C41_no_trace), for any scratch arrays (C41_history_free), for models without storage and losses at superlink ends (C41_end_free_partial), and whenever the rejected calls leave the switches as they were (C41_retry_partial)."
  },
  {
   "property": "C42",
   "status": "partial",
   "theorems": [
    "Pipedream.Driver.C42_partial",
    "Pipedream.Driver.C42_retry_ignores_tolerance",
    "Pipedream.Driver.C42_violated"
   ],
   "note": "Holds when the caller uses the default tol and norm (C42_partial). Violated otherwise: the recursive call passes neither (C42_retry_ignores_tolerance universal, C42_violated concrete)."
  },
  {
   "property": "C43",
   "status": "proved",
   "theorems": [
    "Pipedream.Driver.C43_compute_limits",
    "Pipedream.Driver.C43_compute_antitone",
    "Pipedream.Driver.C43_compute_shrinks",
    "Pipedream.Driver.C43_compute_grows",
    "Pipedream.Driver.C43_filter_limits",
    "Pipedream.Driver.C43_filter_direction",
    "Pipedream.Driver.C43_filter_antitone",
    "Pipedream.Driver.C43_filter_raises",
    "Pipedream.Driver.C43_filter_log"
   ],
   "note": "Limits for both controllers, monotone response to the last error, direction on either side of the target; plus the TypeError raised by filter_step_size when the history holds steps taken without subdivisions."
  },
  {
   "property": "C44",
   "status": "proved",
   "theorems": [
    "Pipedream.Driver.C44_history"
   ],
   "note": "By induction over arbitrary sequences of accepted steps."
  },
  {
   "property": "C45",
   "status": "proved",
   "theorems": [
    "Pipedream.Heap.C45_saved_isolated",
    "Pipedream.Heap.C45_save_stores",
    "Pipedream.Heap.C45_round_trip",
    "Pipedream.Heap.C45_round_trip_state",
    "Pipedream.Heap.C45_load_private",
    "Pipedream.Heap.C45_load_excluded"
   ],
   "note": "Object store with aliasing: attributes, the states dictionary and user variables hold references; all histories of in-place writes, rebinding, aliasing, user access, saves and loads. Recomputed areas after load are outside the restored set; user access to arrays inside model.states is not modelled."
  },
  {
   "property": "C46",
   "status": "proved",
   "theorems": [
    "Pipedream.Driver.C46_step",
    "Pipedream.Driver.C46_converged"
   ],
   "note": "For every num_iter and every convergence behaviour."
  },
  {
   "property": "C47",
   "status": "partial",
   "theorems": [
    "Pipedream.Topology.C47_downhill_iff",
    "Pipedream.Topology.C47_equal_offsets_partial",
    "Pipedream.Topology.C47_uphill",
    "Pipedream.Topology.C47_link_slopes_partial"
   ],
   "note": "Exact condition proved: downhill iff out_offset - in_offset <= |z_0 - z_1|; false in general because the constructor exchanges the superjunctions but not the offsets (C47_uphill). Proved outright for equal offsets."
  },
  {
   "property": "C48",
   "status": "proved",
   "theorems": [
    "Pipedream.Topology.C48_generated_blocks",
    "Pipedream.Topology.C48_lengths",
    "Pipedream.Topology.C48_elevations",
    "Pipedream.Topology.C48_end_elevations",
    "Pipedream.Topology.C48_slopes",
    "Pipedream.Topology.C48_mobile",
    "Pipedream.Topology.C48_consistent",
    "Pipedream.Topology.Blocks.linkEnd",
    "Pipedream.Topology.Blocks.isEnd",
    "Pipedream.Topology.Blocks.isPenult",
    "Pipedream.Topology.Blocks.nk",
    "Pipedream.Topology.Blocks.layout",
    "Pipedream.Topology.Blocks.nodeIdxSpec",
    "Pipedream.Topology.Blocks.forwardIi_end"
   ],
   "note": "Index tables for all counts, lengths, elevations, slopes, also with mobile element; argsort and linspace by specification."
  },
  {
   "property": "C49",
   "status": "partial",
   "theorems": [
    "Pipedream.Reposition.C49_valid",
    "Pipedream.Reposition.C49_fixed_kept",
    "Pipedream.Reposition.C49_depth",
    "Pipedream.Reposition.C49_slopes",
    "Pipedream.Reposition.C49_lengths",
    "Pipedream.Reposition.C49_all_partial",
    "Pipedream.Reposition.C49_succeeds_iff",
    "Pipedream.Reposition.C49_violated",
    "Pipedream.Reposition.C49_reach",
    "Pipedream.Reposition.C49_constructed",
    "Pipedream.Reposition.C49_end_stretch"
   ],
   "note": "For superlinks without upstream end stretch (dx_uk = 0): one call keeps order, ends, length, fixed junctions with their depths, slopes; the mobile junction sits where the bed meets the downstream level (or at the centre) with an interpolated depth; holds after any number of calls and from construction. Not met by the code: _x_I[_I_1] reads entry 2*_I_1, so the call leaves its arrays exactly when a superlink in the second half has to move (C49_succeeds_iff, C49_violated); with an end stretch the centre is misplaced (C49_end_stretch); a link of length zero arises when the new position is that of a fixed junction (C49_lengths)."
  },
  {
   "property": "C50",
   "status": "proved",
   "theorems": [
    "Pipedream.Kalman.C50_covariance",
    "Pipedream.Kalman.C50_optimal",
    "Pipedream.Kalman.C50_state",
    "Pipedream.Kalman.C50_agreement",
    "Pipedream.Kalman.C50_exact_data",
    "Pipedream.Kalman.C50_completes",
    "Pipedream.Kalman.C50_filter",
    "Pipedream.Kalman.C50_run",
    "Pipedream.Kalman.C50_run_completes",
    "Pipedream.Kalman.C50_initial"
   ],
   "note": "Covariance symmetric PSD, at most the predicted one and at most that of any other gain; state equation; agreement; exact data; completion with positive definite noise; invariant along any run of assimilations."
  },
  {
   "property": "C51",
   "status": "partial",
   "theorems": [
    "Pipedream.Kalman.C51_square_root_raises",
    "Pipedream.Kalman.C51_plain_partial"
   ],
   "note": "Violated: SR=True raises for all inputs (two values unpacked into three). The plain option works."
  },
  {
   "property": "C52",
   "status": "proved",
   "theorems": [
    "Pipedream.Network.C52_state_space"
   ],
   "note": ""
  },
  {
   "property": "C53",
   "status": "proved",
   "theorems": [
    "Pipedream.Quality.C53_limits"
   ],
   "note": "Any non-empty history, any hydraulics, coefficients and solver results; needs c_min <= c_max. The Kalman filters of the quality model are outside this claim."
  },
  {
   "property": "C54",
   "status": "proved",
   "theorems": [
    "Pipedream.Quality.C54_transport_equations",
    "Pipedream.Quality.C74_maximum_principle"
   ],
   "note": "All divisors non-zero and no limit active: links, junctions (ends included) and end stretches satisfy the equations stated with fluxes in QualitySpec. C74 shows both hypotheses hold for physical data."
  },
  {
   "property": "C55",
   "status": "proved",
   "theorems": [
    "Pipedream.Quality.C55_uniform_solves",
    "Pipedream.Quality.C55_uniform_preserved"
   ],
   "note": "Equations for every dispersion; with positive dispersion the step itself returns the uniform field."
  },
  {
   "property": "C56",
   "status": "partial",
   "theorems": [
    "Pipedream.Quality.C56_nothing_enters",
    "Pipedream.Quality.C56_nothing_leaves",
    "Pipedream.Quality.C56_pure_advection_lost",
    "Pipedream.Quality.C56_entering_partial"
   ],
   "note": "The code violates it at zero dispersion: nothing enters and nothing leaves the pipe. Proved for positive dispersion."
  },
  {
   "property": "C57",
   "status": "partial",
   "theorems": [
    "Pipedream.Quality.C57_mass_defect",
    "Pipedream.Quality.C57_conserved_iff",
    "Pipedream.Quality.C57_witness",
    "Pipedream.Quality.C57_conserved_partial",
    "Pipedream.Quality.C57_step",
    "Pipedream.Quality.Ex.C57_step_violated"
   ],
   "note": "The code violates it when volume and concentration both change; the exact defect is proved, conservation holds iff one of them is unchanged. C57_step states the iff for every control volume of what the step of the model returns, C57_step_violated gives a step which does not conserve."
  },
  {
   "property": "C58",
   "status": "proved",
   "theorems": [
    "Pipedream.Quality.C58_controls_conserve"
   ],
   "note": "Rows of the control blocks equal the net contaminant leaving through controls at source concentration; sum over superjunctions is zero."
  },
  {
   "property": "C59",
   "status": "partial",
   "theorems": [
    "Pipedream.Driver.C59_explicit_partial",
    "Pipedream.Driver.C59_hydraulics_never_completes",
    "Pipedream.Driver.C59_type_error",
    "Pipedream.Quality.C59_quality_never_completes",
    "Pipedream.Quality.C59_quality_explicit_partial"
   ],
   "note": "With an explicit dt the step uses it (C59_explicit_partial). Violated for the hydraulic model: step() without dt never completes and raises TypeError once reached."
  },
  {
   "property": "C60",
   "status": "partial",
   "theorems": [
    "Pipedream.Lsq.C60_offset_iff",
    "Pipedream.Lsq.C60_reads_own_partial",
    "Pipedream.Lsq.C60_reads_outside",
    "Pipedream.Lsq.C60_lsq_exact",
    "Pipedream.Lsq.C60_generated",
    "Pipedream.Lsq.C60_mixed_fails"
   ],
   "note": "Each superlink reads its own coefficients iff its link count equals that of superlink 0 (always so for generated internals); then the least-squares solver returns exactly the solution of the superlink's own equations. For mixed counts the offset _k_1k is wrong: reads outside the array or another superlink's coefficients are proved to occur."
  },
  {
   "property": "C61",
   "status": "partial",
   "theorems": [
    "Pipedream.Driver.C61_norm2",
    "Pipedream.Driver.C61_max",
    "Pipedream.Driver.C61_norm1_partial",
    "Pipedream.Driver.C61_norm1_cancels",
    "Pipedream.Driver.C61_norm0_one_sided",
    "Pipedream.Driver.C61_nan",
    "Pipedream.Driver.C61_norm0_nan"
   ],
   "note": "Proved for norm 2 and the max norm on the absolute error; norm 1 only for errors of one sign. Violated: norm 1 sums signed errors, norm 0 takes a one-sided maximum; nan handling stated in C61_nan."
  },
  {
   "property": "C62",
   "status": "partial",
   "theorems": [
    "Pipedream.Superlink.C62_balance_partial",
    "Pipedream.Superlink.C62_upstream_discrepancy",
    "Pipedream.Superlink.C62_downstream_discrepancy",
    "Pipedream.Superlink.C62_upstream_fails",
    "Pipedream.Superlink.C62_upstream_friction_raises_head",
    "Pipedream.Superlink.C62_downstream_sign_partial",
    "Pipedream.Superlink.C62_unknown_method",
    "Pipedream.Superlink.C62_witness",
    "Pipedream.Superlink.C62_zero_length"
   ],
   "note": "Violated by the code: upstream friction has the wrong sign and neither end divides it by g*A (exact discrepancy proved for all data, witness C62_witness). Proved: exact momentum balance without friction, sign of the downstream coefficient, ValueError for unknown methods."
  },
  {
   "property": "C63",
   "status": "proved",
   "theorems": [
    "Pipedream.Geometry.C63_transect_growth",
    "Pipedream.Geometry.C63_transect_range",
    "Pipedream.Geometry.C63_transect_perimeter",
    "Pipedream.Geometry.C63_lookup_mono",
    "Pipedream.Geometry.C63_lookup_accuracy",
    "Pipedream.Geometry.C63_lookup_above"
   ],
   "note": ""
  },
  {
   "property": "C64",
   "status": "partial",
   "theorems": [
    "Pipedream.Geometry.C64_end_perimeter_fresh_partial",
    "Pipedream.Geometry.C64_elliptical_stale"
   ],
   "note": "True for all shapes but elliptical, for which nothing recomputes the perimeter at superlink ends."
  },
  {
   "property": "C65",
   "status": "partial",
   "theorems": [
    "Pipedream.Interp.C65_own_table_partial",
    "Pipedream.Interp.C65_reads_other",
    "Pipedream.Interp.C65_witness",
    "Pipedream.Interp.C65_witness_lengths"
   ],
   "note": "Violated unless the dictionary is in alphabetical order: the starts are reordered although the tables are concatenated in the new order. Proved for alphabetical dictionaries; in general storage st reads table order[order[st]]."
  },
  {
   "property": "C66",
   "status": "partial",
   "theorems": [
    "Pipedream.Infiltration.C66_wet_partial",
    "Pipedream.Infiltration.C66_dry",
    "Pipedream.Infiltration.C66_negative"
   ],
   "note": "Violated on every soil by a short shower and a dry spell; kept (up to solver tolerance) in wet steps."
  },
  {
   "property": "C67",
   "status": "partial",
   "theorems": [
    "Pipedream.Topology.C67_upstream",
    "Pipedream.Topology.C67_downstream_iff"
   ],
   "note": "Upstream slope always right; downstream slope right iff there is an upstream stretch or the pipe is level (the code tests _dx_uk for the downstream end)."
  },
  {
   "property": "C68",
   "status": "partial",
   "theorems": [
    "Pipedream.Topology.C68_ends_kept_iff",
    "Pipedream.Topology.C68_ends_exchanged"
   ],
   "note": "Exact condition proved: ends kept iff the pipe is not reversed or the offsets are equal; false in general (C68_ends_exchanged)."
  },
  {
   "property": "C69",
   "status": "partial",
   "theorems": [
    "Pipedream.Topology.C69_same_network",
    "Pipedream.Topology.C69_named",
    "Pipedream.Topology.C69_unnamed_iff",
    "Pipedream.Topology.C69_mislabelled"
   ],
   "note": "Network and forcing consistent for every permutation; labels right with a name column; without one the label is right iff the permutation fixes the superjunction (C69_mislabelled)."
  },
  {
   "property": "C70",
   "status": "partial",
   "theorems": [
    "Pipedream.Kalman.C70_boundary_kept_partial",
    "Pipedream.Kalman.C70_boundary_moved",
    "Pipedream.Kalman.C70_moved_example"
   ],
   "note": "Holds when C Qcov C^T has a zero row at the boundary; violated for scalar Qcov, Rcov: the fixed head is pulled towards the observation by q/(q+r) in every network."
  },
  {
   "property": "C71",
   "status": "partial",
   "theorems": [
    "Pipedream.Kalman.C71_square_root_result",
    "Pipedream.Kalman.C71_diagonal_partial",
    "Pipedream.Kalman.C71_square_root_differs"
   ],
   "note": "The square-root routine is the plain update with X X^T replaced by X^T X for the Cholesky factors X (numpy returns the lower factor) and with C ignored; equal for diagonal covariances, different for a correlated prior."
  },
  {
   "property": "C72",
   "status": "partial",
   "theorems": [
    "Pipedream.Kalman.C72_defaults_raise",
    "Pipedream.Kalman.C72_positive_noise_partial"
   ],
   "note": "Violated: default covariances give a zero innovation covariance, LinAlgError for all networks and data. Works with positive observation noise."
  },
  {
   "property": "C73",
   "status": "partial",
   "theorems": [
    "Pipedream.Kalman.C73_response",
    "Pipedream.Kalman.C73_iff",
    "Pipedream.Kalman.C73_no_stretch_partial",
    "Pipedream.Kalman.C73_understated"
   ],
   "note": "A_2 leaves out the storage of the superlink end stretches and, after a subdivided step, uses the undivided step: proved strictly too small; exact condition proved."
  },
  {
   "property": "C74",
   "status": "proved",
   "theorems": [
    "Pipedream.Quality.C74_maximum_principle",
    "Pipedream.Quality.C74_run"
   ],
   "note": "One step and any sequence of steps."
  },
  {
   "property": "C75",
   "status": "proved",
   "theorems": [
    "Pipedream.Quality.C75_solvable"
   ],
   "note": "Existence and uniqueness."
  },
  {
   "property": "C76",
   "status": "proved",
   "theorems": [
    "Pipedream.Quality.C76_network_mass",
    "Pipedream.Quality.C76_steady_conserved",
    "Pipedream.Quality.C76_step_mass"
   ],
   "note": "For every solution of the transport equations; a step gives one by C74."
  },
  {
   "property": "C77",
   "status": "partial",
   "theorems": [
    "Pipedream.Reposition.C77_flow_carried_partial",
    "Pipedream.Reposition.C77_merged",
    "Pipedream.Reposition.C77_flow_upstream",
    "Pipedream.Reposition.C77_violated"
   ],
   "note": "Holds for every link except the one just downstream of the mobile junction after a move upstream past another junction; there the code gives the flow of a link further downstream (C77_flow_upstream, witness C77_violated)."
  },
  {
   "property": "C78",
   "status": "partial",
   "theorems": [
    "Pipedream.Quality.C78_junctions",
    "Pipedream.Quality.C78_end_stretches",
    "Pipedream.Quality.C78_link_iff",
    "Pipedream.Quality.C78_superjunction_iff",
    "Pipedream.Quality.C78_water_balance_partial",
    "Pipedream.Quality.C78_coupled_uniform_partial",
    "Pipedream.Quality.C78_circular_never_balances",
    "Pipedream.Quality.C78_uniform_only_if",
    "Pipedream.Quality.C78_iterated_iff"
   ],
   "note": "Holds for open rectangular pipes, a single unclipped pass, submerged pipe ends and exact controls (C78_water_balance_partial; C78_coupled_uniform_partial for the coupled step). Each control volume has its own exact condition (C78_link_iff, C78_superjunction_iff). Violated for circular pipes on every rise below half full (C78_circular_never_balances); any imbalance destroys a uniform concentration (C78_uniform_only_if). After more than one pass the areas taken over as those of the beginning are those of the last iterate; exact condition C78_iterated_iff."
  },
  {
   "property": "C79",
   "status": "partial",
   "theorems": [
    "Pipedream.Quality.C79_accepted_iff",
    "Pipedream.Quality.C79_circular_partial",
    "Pipedream.Quality.C79_rect_partial",
    "Pipedream.Quality.C79_mixed_violated",
    "Pipedream.Quality.C79_end_diameter",
    "Pipedream.Quality.C79_end_violated",
    "Pipedream.Quality.C79_one_formula",
    "Pipedream.Quality.C79_inlet_iff",
    "Pipedream.Quality.C79_outlet_iff"
   ],
   "note": "Holds when all links share the first link's shape (circular or open rectangular). Violated for mixed shapes, since the shape code of link 0 decides for all, and for pipe ends, which index the link table by superlink number."
  },
  {
   "property": "C80",
   "status": "partial",
   "theorems": [
    "Pipedream.Quality.C80_prediction_iff",
    "Pipedream.Quality.C80_later_calls_partial",
    "Pipedream.Quality.C80_first_call_iff",
    "Pipedream.Quality.C80_first_boundary",
    "Pipedream.Quality.C80_first_boundary_lost",
    "Pipedream.Quality.C80_multi"
   ],
   "note": "Holds from the second call on (C80_later_calls_partial) and for KF_Multi_WQ. Violated on the first call: x_hat starts at zero, so the prediction equals the step's exactly if no superjunction with water starts with contaminant (C80_first_call_iff); fixed superjunctions can be set to zero (C80_first_boundary_lost)."
  },
  {
   "property": "C81",
   "status": "partial",
   "theorems": [
    "Pipedream.Quality.C81_nonneg_partial",
    "Pipedream.Quality.C81_no_upper_limit",
    "Pipedream.Quality.C81_correlated_moves_all",
    "Pipedream.Quality.C81_boundary_moved",
    "Pipedream.Quality.C81_uncorrelated_first_partial"
   ],
   "note": "Concentrations are nonnegative (C81_nonneg_partial). c_min and c_max are ignored (C81_no_upper_limit) and prescribed concentrations are moved (C81_correlated_moves_all, C81_boundary_moved); with uncorrelated noise the first call moves the observed superjunction only."
  },
  {
   "property": "C82",
   "status": "proved",
   "theorems": [
    "Pipedream.Quality.C82_covariance",
    "Pipedream.Quality.C82_between",
    "Pipedream.Quality.C82_exact_data",
    "Pipedream.Quality.C82_agreement",
    "Pipedream.Quality.C82_run",
    "Pipedream.Quality.C82_completes",
    "Pipedream.Quality.C82_noiseless_raises",
    "Pipedream.Quality.C82_completes_after_step",
    "Pipedream.Quality.C82_artificial_no_feedback"
   ],
   "note": "For every call and every run of calls; availability after a model step via C75."
  },
  {
   "property": "C83",
   "status": "partial",
   "theorems": [
    "Pipedream.Quality.C83_transition_iff",
    "Pipedream.Quality.C83_violated",
    "Pipedream.Quality.C83_returned_iff"
   ],
   "note": "Holds exactly when no fixed superjunction holds water (C83_transition_iff): the rows of fixed superjunctions keep V/dt. Pipe concentrations are held fixed."
  },
  {
   "property": "C84",
   "status": "partial",
   "theorems": [
    "Pipedream.Record.C84_start_partial",
    "Pipedream.Record.C84_given_start_iff",
    "Pipedream.Record.C84_given_start_ignored"
   ],
   "note": "Holds without t_start. An explicit t_start never moves the model's clock and has no effect on any later operation (C84_given_start_iff, C84_given_start_ignored)."
  },
  {
   "property": "C85",
   "status": "partial",
   "theorems": [
    "Pipedream.Record.C85_row_partial",
    "Pipedream.Record.C85_only_partial",
    "Pipedream.Record.C85_initial_iff",
    "Pipedream.Record.C85_initial_stale",
    "Pipedream.Record.C85_violated",
    "Pipedream.Record.C85_reload_partial"
   ],
   "note": "Holds for all rows written by record_state. The row written by the constructor holds the state saved before the model's last step under the time after it (C85_initial_iff, C85_initial_stale, witness C85_violated)."
  },
  {
   "property": "C86",
   "status": "proved",
   "theorems": [
    "Pipedream.Record.C86_all_rows"
   ],
   "note": ""
  },
  {
   "property": "C87",
   "status": "proved",
   "theorems": [
    "Pipedream.Record.C87_step_input",
    "Pipedream.Record.C87_only_end_times",
    "Pipedream.Record.C87_source",
    "Pipedream.Record.C87_own_table"
   ],
   "note": ""
  },
  {
   "property": "C88",
   "status": "partial",
   "theorems": [
    "Pipedream.Record.C88_delivered_partial",
    "Pipedream.Record.C88_difference_partial",
    "Pipedream.Record.C88_missed",
    "Pipedream.Record.C88_pulse_missed"
   ],
   "note": "The volume taken in is the right-endpoint sum; when each step lies between neighbouring samples it is off by dt/2 times the difference of the end values, otherwise whole pulses can be missed (C88_missed, C88_pulse_missed)."
  },
  {
   "property": "C89",
   "status": "partial",
   "theorems": [
    "Pipedream.Record.C89_bar_partial",
    "Pipedream.Record.C89_prints_partial",
    "Pipedream.Record.C89_violated",
    "Pipedream.Record.C89_share"
   ],
   "note": "Holds for t_start < t_end and non-decreasing times. With equal start and end the first call after that time raises ZeroDivisionError; before a given t_start the bar is too long (C89_violated)."
  },
  {
   "property": "C90",
   "status": "partial",
   "theorems": [
    "Pipedream.Record.C90_counters_partial",
    "Pipedream.Record.C90_reload_time"
   ],
   "note": "Counters and state as stated; the saved state is not reset, so load_state() sets the clock to t + (n-1) dt (C90_reload_time)."
  },
  {
   "property": "C91",
   "status": "partial",
   "theorems": [
    "Pipedream.Exit.C91_logic",
    "Pipedream.Exit.C91_submerged",
    "Pipedream.Exit.C91_exit_depth",
    "Pipedream.Exit.C91_exit_partial",
    "Pipedream.Exit.C91_mild_iff",
    "Pipedream.Exit.C91_rest_raises",
    "Pipedream.Exit.C91_normal_depth_stays_zero",
    "Pipedream.Exit.C91_outfall",
    "Pipedream.Exit.C91_regime"
   ],
   "note": "Backwater, submerged ends and steep slopes as stated. Not on mild slopes: normal depth is never computed (superlink.py 4072 commented out), so critical depth is never imposed (iff), and a freely discharging superlink without flow raises."
  },
  {
   "property": "C92",
   "status": "partial",
   "theorems": [
    "Pipedream.Exit.C92_exists",
    "Pipedream.Exit.C92_unique",
    "Pipedream.Exit.C92_mono",
    "Pipedream.Exit.C92_returns_critical_partial",
    "Pipedream.Exit.C92_raises_iff",
    "Pipedream.Exit.C92_rest_raises",
    "Pipedream.Exit.C92_large_raises"
   ],
   "note": "Existence, uniqueness and monotonicity of critical depth proved for circular pipes; the search returns it when it does not raise. It raises (iff) at zero and at very large discharges although critical depth exists."
  },
  {
   "property": "C93",
   "status": "proved",
   "theorems": [
    "Pipedream.Nnls.C93_nnls_exact",
    "Pipedream.Nnls.C93_nonneg",
    "Pipedream.Nnls.C93_no_minimum"
   ],
   "note": "scipy.optimize.nnls is taken as an exact minimiser over the non-negative orthant. Depths may lie below min_depth (C93_no_minimum)."
  },
  {
   "property": "C94",
   "status": "partial",
   "theorems": [
    "Pipedream.Nnls.C94_depths_from_flows",
    "Pipedream.Nnls.C94_alt_partial",
    "Pipedream.Nnls.C94_alt_single"
   ],
   "note": "depth_from_recurrence proved in both directions; solve_superlink_depths_alt inverts the end relations when their determinant is non-zero, which it never is for a superlink of one link."
  },
  {
   "property": "C95",
   "status": "partial",
   "theorems": [
    "Pipedream.Diag.C95_free_partial",
    "Pipedream.Diag.C95_holds_iff",
    "Pipedream.Diag.C95_no_boundary",
    "Pipedream.Diag.C95_state_space_iff",
    "Pipedream.Diag.C95_violated"
   ],
   "note": "Holds on free rows and on the last row; on fixed rows exactly when D + Q equals the prescribed head (iff), which is violated in a concrete network. Without fixed heads the augmented system is equivalent to the head equations."
  },
  {
   "property": "C96",
   "status": "partial",
   "theorems": [
    "Pipedream.Diag.C96_uniform_partial",
    "Pipedream.Diag.C96_uniform_flow_iff",
    "Pipedream.Diag.C96_equal_links",
    "Pipedream.Diag.C96_opposing",
    "Pipedream.Diag.C96_empty",
    "Pipedream.Diag.C96_overestimates"
   ],
   "note": "Exact for uniform flow and equal link lengths; iff for uniform flow; never above the travel time for equal links. Otherwise it can exceed the travel time, be infinite (opposing flows) or not a number (dry)."
  },
  {
   "property": "C97",
   "status": "partial",
   "theorems": [
    "Pipedream.Diag.C97_discharges_partial",
    "Pipedream.Diag.C97_functional",
    "Pipedream.Diag.C97_tank_no_flow",
    "Pipedream.Diag.C97_tank_never_drains"
   ],
   "note": "Proved when the reported upstream volume is positive, hence for functional storages. For tabular storages of constant area the reported volume is 0 (C33) and no run ever passes water through the orifice."
  },
  {
   "property": "C98",
   "status": "proved",
   "theorems": [
    "Pipedream.Diag.C98_froude",
    "Pipedream.Diag.C98_reverse",
    "Pipedream.Diag.C98_sigma_antitone",
    "Pipedream.Diag.C98_flow_antitone",
    "Pipedream.Diag.C98_lipschitz",
    "Pipedream.Diag.C98_regimes",
    "Pipedream.Diag.C98_dry"
   ],
   "note": "Exact real arithmetic."
  },
  {
   "property": "C99",
   "status": "partial",
   "theorems": [
    "Pipedream.Diag.C99_volume_before",
    "Pipedream.Diag.C99_current_iff",
    "Pipedream.Diag.C99_one_step_late"
   ],
   "note": "V_j is computed before the heads are solved: it is the volume at the previous heads, equal to the volume at the reported heads exactly when the depth did not change."
  }
 ]
}