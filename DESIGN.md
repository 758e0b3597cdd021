# Formal model of pipedream in Lean 4: design

Source: `/repo/pipedream_solver` (pinned commit). Model and proofs: `/verif/lean/Verif`.
Properties: `/verif/properties.jsonl`; status per property: `/verif/MANIFEST.json`;
mutation log: `/verif/seeded/LOG.jsonl`.

## 1. Trusted base

* Lean 4.33.0 kernel; axioms `propext`, `Classical.choice`, `Quot.sound` only
  (Mathlib's reals need them). No `sorry`, no added axioms, no `native_decide`/`bv_decide`.
* The reading of the Python source. The code is never run here; each Lean definition cites the
  file and lines it models, and says where it simplifies.
* `float64` is modelled by an exact linear ordered field (`K`) or by `ℝ`. Rounding, overflow,
  NaN/inf propagation are **not** modelled. Where Python would raise or produce NaN/inf
  (division by zero, negative base of a real power) the theorem carries the guard.
* Library routines are taken by specification:
  * `np.linalg.solve`, `scipy.sparse.linalg.spsolve`, `solve_banded`: *a* vector solving the stated
    linear system. Existence and uniqueness of that vector is itself a theorem (C06, C75), so the
    specification determines the result.
  * `np.linalg.inv`, `cholesky`, `qr`: an inverse, a lower factor `L` with `L Lᵀ = M`, a factorisation;
    `LinAlgError` where there is none.
  * `np.argsort`: a permutation putting the entries in ascending order (no stability assumed).
  * `np.searchsorted`: the first index whose entry is not smaller.
  * `np.linspace`, `np.diff`, `cumsum`, `cumtrapz`, `repeat`, `delete`, boolean masks: their defining formulas.
  * `scipy.optimize.newton` with a derivative (scipy 1.2 or later): its documented loop with the default
    tolerance, 50 iterations and `RuntimeError` on a vanishing derivative or an exhausted budget.
  * `scipy.sparse.csgraph.reverse_cuthill_mckee`: the reverse of a breadth-first numbering.
* numpy arrays are modelled as functions `ℕ → K` (or `Fin n → K`, `Matrix`), in-place writes as
  `Function.update`, loops as folds / structural recursion. In-bounds indexing is assumed, negative
  (wrap-around) indices are not modelled except where the code uses them on purpose
  (`numba_create_banded`).
* Not modelled: pandas I/O, numba compilation, the drawing calls of matplotlib and the terminal (the
  numbers handed to them are: `VisualModel`, `ViewModel`, `RecordModel`). The numpy twins of the compiled
  routines are modelled where they compute something (`Base*`, `GeometryBase*`, `InfiltrationBase*`,
  `StorageBase*`, `IrregularModel`).

## 2. Layout

| modules | models | properties |
|---|---|---|
| `Basic` | `safe_divide`, `numba_add_at`, clamps, array loops | all |
| `Sweep*`, `InternalsLemmas` | forward/backward recurrences, internal solve (nsuperlink.py 1385–1458, 2055 ff.) | C01–C03, C10 |
| `Link*` | link and node coefficients, friction, velocities | C01, C17, C18 |
| `Superlink*` | end-head and end-flow coefficients | C04, C05, C19 |
| `EndBc*` | `bc_method` 'b' and the geometry of superlink ends | C62, C64 |
| `Control*` | orifices, weirs, pumps | C20–C27 |
| `Network*`, `MMatrix`, `OrderProps` | matrix assembly, solve, mass balance, comparison principle | C06–C09, C11, C12, C15, C52 |
| `Banded*` | bandwidth, permutation, banded storage | C13 |
| `Step*`, `ScratchProps`, `PhysicsProps` | one step of `SuperLink`, histories of steps; equations restated in physical variables | C01, C04, C06–C11, C14, C16 |
| `Geometry*`, `Transect*` | `ngeometry.py`, irregular sections | C28–C32, C63 |
| `Storage*` | `storage.py`, storage tables of `nsuperlink.py` | C33, C34, C65 |
| `Interp*`, `Root*` | `nutils.py` lookups and root finder | C38, C39 |
| `Binding*` | `superlink.py` `_setup_step`, `_solve_step`, `step`, constructor; `hydraulics.py` | C104 |
| `Whole*`, `RetryProps` | the step with the geometry, storage areas, orifice areas and end switches it computes itself; undoing a step with `load_state` | C105, C41 |
| `DatumProps`, `DriverDatumProps` | change of the height datum, for the step and for the error estimate | C106, C107 |
| `PartModel`, `PartProps` | networks inside networks: order of rows, isolated parts | C108–C110 |
| `MirrorModel`, `MirrorProps`, `MirrorWitness` | superlinks entered from the other end | C111 |
| `GeometryBaseModel`, `GeometryBaseProps` | the vectorised classes of geometry.py; the elliptic integrals; soundness of models with elliptical pipes without an assumption on the perimeter (`Step.usable_ellOf`) | C112, C113 |
| `ConfigModel`, `ConfigProps` | `configure_hydraulic_geometry`, the loops of `link_hydraulic_geometry` and their refinement of `Step.Section` | C114 |
| `QualityUnits`, `QualityLinear` | scaling, superposition and comparison of whole water-quality runs | C115–C117 |
| `QualityRecast` | renumbering, reversing and restricting a water-quality model | C118 |
| `TimeProps` | time shift of drivers, tables, records and progress bar | C119 |
| `ScaleModel`, `ScaleLemmas`, `ScaleControls`, `ScaleStep`, `ScaleProps` | change of scale of a model, its objects and inputs (specification); similarity of the whole step | C120 |
| `StorageBaseModel`, `StorageBaseProps`, `StorageNameProps` | storage.py; resolution of storage names in both classes | C121, C122 |
| `RecoverModel`, `RecoverProps` | link flows and concentrations from the recurrences | C123 |
| `BaseSweepModel`, `BaseSweepProps` | the vectorised sweeps of the base class | C124 |
| `BaseCoefModel`, `BaseCoefProps` | the momentum and continuity coefficients of the base class | C125 |
| `BaseEndModel`, `BaseEndProps` | the end relations of the base class | C126 |
| `BaseInternalsModel`, `BaseInternalsLemmas`, `BaseInternalsProps` | the internal solve of the base class | C127 |
| `IrregularModel`, `IrregularProps` | `Irregular` of geometry.py | C128 |
| `ViewModel`, `ViewProps` | getters, setters and the in-place writes of a step | C129, C130 |
| `SoilModel`, `SoilProps` | constants of the soil, suction head | C131, C132 |
| `BaseNetModel`, `BaseNetProps` | head equations of the pure-Python class | C133 |
| `BaseControlModel`, `BaseControlProps` | controls of the pure-Python class | C134 |
| `BaseRepositionModel`, `BaseRepositionProps` | repositioning in the pure-Python class | C135 |
| `VisualModel`, `VisualProps` | profile and map plots: what is drawn where, and the axes | C136, C137 |
| `StabilityProps` | sensitivity of a step to its inflows, in volumes | C138 |
| `RootReturnsProps`, `InfiltrationReturnsProps` | iterations of the root finders, completion of infiltration steps | C39, C103, C139, C140 |
| `TransectDatumProps` | datum of surveyed sections | C141 |
| `FilterStepModel`, `FilterStepProps` | the solve after a filter correction | C142 |
| `QualityInitModel`, `QualityInitProps` | constructor of the water-quality model | C143 |
| `QualityDecayProps` | first-order decay | C144 |
| `InfiltrationLawProps`, `InfiltrationRainProps` | the Green–Ampt differential equation, its solutions, and steps against it; more rain | C145, C146 |
| `InitialModel`, `InitialProps`, `FlowBoundProps` | what the constructor leaves behind; maximum principle of a superlink | C147, C148 |
| `FloorProps` | water created and lost by the limits on depths and heads | C149 |
| `SymmetryProps` | symmetric networks stay symmetric, parallel pipes and controls | C150 |
| `OptionModel`, `OptionProps` | the options given as strings, unknown strings | C151 |
| `LevelProps` | the first step from rest: a maximum principle for the levels, and pipe ends above the water | C152 |
| `ShortStepProps` | what a step changes is of the order of its length | C153 |
| `EnergyProps` | energy account of a step; none is created from rest | C154 |
| `LoopModel`, `LoopProps` | the documented loops around `Simulation.step`, over the whole-step model; they end | C155 |
| `LateralProps` | more lateral inflow into pipes lowers no level where the water is gentle; where it is held back | C156 |
| `LimitModel`, `LimitProps` | steps with missing depth limits (`np.inf`, the default); limits act only where they are reached; transfer of what is proved for numeric limits | C157 |
| `NormalDepthModel`, `NormalDepthProps` | normal depth of circular pipes: meaning, existence, two depths, no depth | C158 |
| `BoundaryVolumeProps` | volume balance of networks with fixed heads; inflows at fixed heads are ignored | C159 |
| `IterateModel`, `ImplicitProps` | `step` with iterations on the whole object; fixed points are the implicit solutions; where the loop does not start | C160 |
| `GateProps` | two steps differing in the setting of one control | C161 |
| `OrificeMonoProps` | orifice flow as a function of heads and opening | C162 |
| `KalmanFitProps` | estimates and measurements before and after an update | C163 |
| `TimeConsistencyProps` | equations in space; rates over short steps satisfy them up to the step size | C164 |
| `EndLossProps` | loss at pipe ends as a product of successive flows | C165 |
| `ControlContinuityProps` | where weir, orifice and pump flows are continuous in the heads | C166 |
| `ShutProps` | a network with shut controls computes what the network without them computes | C167 |
| `KalmanJointProps` | assimilating measurements together or one after another | C168 |
| `SplitProps` | controls divided into smaller ones side by side | C169 |
| `QualityStableProps` | distance of two water-quality runs | C170 |
| `QualityConvergeProps` | convergence of water-quality runs to the transport equations in time | C171 |
| `IterateProps` | the passes of an iterated step | C160 |
| `IterateSettleProps` | when the passes of a step over a basin with an overflow converge | C160 |
| `EnergyLineProps` | documented momentum balance, surface and energy line of steady flow | C172 |
| `DischargeProps` | discharge coefficients of pipe ends and structures | C173 |
| `QualityForgetProps` | decay of the influence of initial concentrations | C174 |
| `QualitySteadyProps` | steady concentrations: existence, uniqueness, convergence | C175 |
| `FrictionProps` | steady flow and the friction formulas; growth of the friction loss with the flow | C176, C177 |
| `QualityEndAreaProps` | flow areas of offset pipe ends in the water-quality solver | C79 |
| `StepContinuityLemmas`, `StepContinuityProps` | limits of sweeps, controls and the head equations; continuous dependence of a step on its data, jumps at pipe inverts and at resting orifices | C178 |
| `TableContinuityProps`, `RunContinuityProps` | where table lookups are continuous; continuous dependence of calls and runs of an object with its own geometry | C34, C38, C178 |
| `PerpetualProps` | power account of steady flow; a network left to itself is at rest, except for orifices between equal levels | C179 |
| `UniqueFlowProps` | uniqueness of the steady flow at given sections | C180 |
| `SteadyMonotoneProps` | steady levels rise with inflows and fixed heads | C181 |
| `SectionContinuityProps` | continuity of the sections in depth | C182 |
| `ConveyanceProps` | hydraulic radius and conveyance against depth | C183 |
| `InfiltrationDeclineProps` | bounds on the infiltration rate, its decline from step to step and in a long wet spell | C184 |
| `GraphFlowLemmas` | flows in networks of nonlinear resistances exist (minimum of the content, multipliers are the heads) | C185 |
| `SteadyExistsProps` | a submerged network has a steady flow iff its parts without fixed head are in balance | C185 |
| `ControlGapProps` | flow moved in the head equations versus flow reported by controls | C27 |
| `InitialControlProps` | controls in the constructor's hidden step; bound on the heads with controls | C147 |
| `ControlOrderLemmas` | weirs, orifices and pumps pass more with a higher upstream and a lower downstream head | C186 |
| `SteadyControlProps` | comparison and uniqueness of steady heads in networks with controls (cut through the superjunctions whose head has fallen) | C186 |
| `ElevationProps` | what `z_inv_uk` is, and what assigning elevations does to water at rest | C187 |
| `PumpRangeProps` | the discharges a pump can pass, sumps without steady state | C188 |
| `SettleLemmas`, `SettleMapLemmas`, `SettleProps` | the level of a basin behind an overflow over infinitely many steps | C189 |
| `OutletLemmas`, `OutletProps` | the level of a tank behind a submerged outlet over infinitely many steps | C190 |
| `OpeningProps` | area and flow of an orifice under a larger opening | C191, C22 (upper bound) |
| `SumpProps` | a sump drained by one pump, over whole runs: bounds, endless switching, settling | C192 |
| `PositionModel`, `PositionProps` | positions of the junctions along their superlinks | C193 |
| `VesselProps` | two vessels joined by a drowned orifice | C194 |
| `KalmanOrderProps` | order of covariances in the filter | C195 |
| `IterateVesselProps` | passes of a step over two vessels | C160 |
| `QualityDrawProps` | substance in water drawn off | C196 |
| `ReciprocityProps` | influence of superjunctions on each other | C197 |
| `LargeBasinProps` | basins of large area | C198 |
| `FilterShapeModel`, `FilterShapeProps` | shapes of the matrices given to the Kalman filter | C199 |
| `StepControlProps` | convergence of the step-size filters | C200 |
| `QuietRunProps` | adaptive runs in a steady flow | C201 |
| `SuperposeProps` | a step is affine in inflows, lateral inflows and prescribed heads | C202 |
| `QualityConserveProps`, `KeptProps` | C57 for the result of a step; the steady-flow claims for states a pass keeps | C57, C173, C176, C180, C181, C185, C186 |
| `RecordKeysProps` | names accepted by `record_state`, conversion to tables on exit | C203 |
| `PeakProps` | largest response to inflows and fixed heads in still water | C204 |
| `LaneProps` | channels divided lengthwise into lanes | C205 |
| `TransectEntryModel`, `TransectEntryProps` | reading of the dictionary of transects by both classes | C206 |
| `InfiltrationArrayModel`, `InfiltrationArrayLemmas`, `InfiltrationArrayProps` | the masks and index arrays by which a `GreenAmpt` object steps many soil elements; refinement to one element | C207 |
| `BaseDispatchModel`, `BaseDispatchProps` | grouping of the links by section in the pure-Python class | C208 |
| `JointProps` | two superlinks meeting at a superjunction against one superlink running through | C209 |
| `InfiltrationAccountProps` | account of rain, infiltration and runoff over a run | C210 |
| `SectionIntegralProps` | surveyed sections as integrals over the bed | C211 |
| `ShapeIntegralProps` | regular sections as integrals over their shapes | C212 |
| `PipeVolumeProps` | water in pipes read off their sections over runs | C213 |
| `RegimeModel`, `RegimeProps` | flow regime of superlinks | C214 |
| `RetryToleranceProps` | what tolerance and counter of a simulation tell | C215 |
| `StepReportProps` | control flows reported by a step | C20, C25, C26 |
| `Infiltration*`, `RecoveryProps` | `ninfiltration.py`, `infiltration.py` | C35–C37, C66, C102, C103 |
| `Driver*` | `simulation.py` step control, retries, histories; `SuperLink.step` iterations | C40–C44, C46, C59, C61 |
| `Record*`, `ForcingProps` | `simulation.py` constructor, records, input sampling, progress bar; `spinup` | C84–C90 |
| `Heap*` | `save_state`/`load_state` on an object store with aliasing | C45 |
| `Topology*`, `ConstructProps` | constructor: index tables, generated internals, orientation, permutation | C47, C48, C67–C69 |
| `Lsq*` | least-squares internal solver | C60 |
| `Kalman*` | Kalman filter and square-root variant | C50, C51, C70–C73 |
| `Quality*` | `nquality.py` | C53–C58, C74–C76 |
| `Reposition*` | `reposition_junctions` | C49, C77 |
| `QualityKalman*` | the filters of `nquality.py` | C80–C83 |
| `Exit*` | `exit_hydraulics` (superlink.py 3536–3642) | C91, C92 |
| `Nnls*` | internal solver `nnls`, depths recovered from flows | C93, C94 |
| `Diagnostics*` | augmented system, inverse Courant number, flow regime, reported volumes, an orifice followed over a run | C95–C99 |
| `SteadyProps` | steady states of the whole step, uniform flow | C100 |
| `VolumeRunProps` | stored volume over runs of steps | C101 |
| `QualityImport*` | `import_hydraulic_states` and the start of `step` in `nquality.py` | C59, C78, C79 |

Each group has a model file (definitions only, with citations), a lemma file where needed and a
property file (`...Props`) holding the theorems named in MANIFEST.json, each with a non-vacuity
`example`.

## 3. Per-property plan

* **C01** link equations `a Q_{i-1}+b Q_i+c Q_{i+1} = P + gA (h_I - h_{I+1})` and node equations
  `Q_i - Q_{i-1} + E h = D` are written down as an independent specification (`SaintVenant`);
  theorem: the modelled loops + back substitution produce a solution, by induction on the number of links.
* **C02** sign invariant `U ≤ 0`, `X ≥ 0`, `T, O ≥ a+b+c > 0` by induction along the sweep.
* **C03** frame theorem: the global loops restricted to a superlink equal the loop on that
  superlink's data (index ranges pairwise disjoint).
* **C04** algebra: 2×2 elimination; guard `D* ≠ 0`.
* **C05** from C02's signs plus `X ≥ W`, `-U ≥ -Z` (maximum principle for the depths).
* **C06** Z-matrix with strictly dominant columns on the free rows ⇒ trivial kernel ⇒ unique solution.
* **C07** scatter-add is a finite sum; row of the assembled system rewritten as a balance.
* **C08** boundary row of `A` is the unit row, of `O/W/P` zero.
* **C09, C10** invariants over operation lists.
* **C11** clear+rebuild over any matrix supported on the network's own pattern.
* **C12** sums over elements are permutation invariant; renumbering commutes with assembly.
* **C13** `_compute_bandwidth` stops at the first empty diagonal; the reverse Cuthill–McKee numbering the
  constructor applies leaves no empty diagonal inside the band (breadth-first argument), so the banded
  solve is exact for permuted models; counterexample without permutation.
* **C14** the rest state solves all assembled equations; uniqueness (C06) finishes.
* **C15** inverse-positivity of the M-matrix (comparison principle).
* **C16** sum of C07 over nodes plus sum of C01 continuity.
* **C17–C19** direct inequalities (C19 from C02/C05 lemmas).
* **C20** false at equal heads in the weir regime (counterexample), direction part proved.
* **C21–C26** case analyses in `ℝ`.
* **C27** false (counterexample: linearisation about zero flow moves no water); exact relation `moved = q |q| / |Q|` and
  the condition for agreement proved in `ControlGapProps`.
* **C28–C32** real analysis; C29 false for Parabolic and Elliptical (witnesses), proved for the others.
* **C33** Functional proved via `HasDerivAt`; Tabular false (`cumtrapz(h, A)` has swapped arguments),
  witness; partial for what holds.
* **C34** table lookups.
* **C35, C36** invariants of the step function. **C37** false (missing `·dt`), witness; true for dt = 1.
* **C38, C39** lookups, bracketing invariant.
* **C40–C46** step drivers with the hydraulic update abstract. **C42** false, witness.
* **C47** false with offsets (swap does not swap offsets), partial with equal offsets.
* **C48, C49** index arithmetic and lists; C49 has a defect (global index into local slice).
* **C50** Loewner order via Joseph form. **C51** false (arity mismatch), modelled as a decision.
* **C52** matrix identity.
* **C53–C58** analogous to hydraulics; C56 false at zero dispersion, C57 false when volume changes.
* **C59** false for both (exception), modelled with exceptions as values.
* **C60** false for non-uniform link counts; partial for uniform counts.
* **C61** false for norms 0 and 1; proved for 2 and -1.

* **C62–C215** were added while modelling; each states what a user expects of a piece of code that turned
  out to need its own property. Plans: momentum algebra (C62), lookups (C63–C65), invariants (C66),
  decision logic (C67–C69), Loewner order and explicit small networks (C70–C73), maximum principle and
  M-matrix for transport (C74, C75), summation (C76), permutation arguments (C77), composition
  of the hydraulic step with the transport step (C78, C79), scalar form of the rank-one Kalman update (C80–C83),
  induction over sequences of operations (C84–C87, C89, C90), telescoping of trapezia (C88),
  monotone functions and the intermediate value theorem (C92), decision logic (C91), zero residual of a
  least-squares problem (C93), elimination in both directions (C94), row-wise matrix identities (C95), means and Cauchy–Schwarz (C96),
  induction over runs (C97, C99), case analysis in `ℝ` (C98), equations in plain variables plus uniqueness of the
  solution in both directions (C100), convexity of the storage curve and a telescoping sum (C101),
  an invariant of runs and bisection of a concave residual (C102), tangent bounds around the exact root of the
  integrated equation for both root finders (C103),
  composition of section geometry, storage and step, then induction over histories (C105),
  commutation of every stage with a shift of elevations (C106), limits of the scaled error (C107),
  a network that contains a copy of another one shows its states on the copy, by uniqueness of the small
  head solve (C108–C110), exchange of the two recurrences under reversal (C111),
  masks against branches and the substitution that turns arc length into an elliptic integral (C112, C113),
  an invariant of the shared dictionary of shapes (C114),
  scaling of every array of a quality step and uniqueness of the transport solution (C115–C118),
  simulation of runs by runs at another time (C119) or at
  another scale (C120).

Disagreements between code and property found while modelling are listed in section 4.

## 4. Findings: where the code does not do what the property says

Each line names the theorem that establishes it (all in `Pipedream.*`, listed in MANIFEST.json under the
property). "iff" means the exact condition is proved, not only a witness.

| property | what the code does instead | where in `/repo/pipedream_solver` | theorem |
|---|---|---|---|
| C14 | a sloped end stretch produces flow in still water | nsuperlink.py 851–957 | `Step.C14_sloped_ends_flow` |
| C17 | Darcy–Weisbach friction with `Q = 0` raises `ZeroDivisionError` | nsuperlink.py friction | `Link.C17_darcy_weisbach_at_rest_raises` |
| C20 | an orifice between equal heads in the weir regime passes water | nsuperlink.py 1037 ff. | `Control.C20_equal_heads_flow` |
| C22 | closing a circular or elliptical orifice completely raises; floodplain orifices have no area branch | nsuperlink.py 638–664 | `Geometry.C22_closed_orifice_raises` |
| C23 | several orifices together can take more than the source holds | nsuperlink.py 1534 ff. | `Control.C23_joint_fails` |
| C27 | controls linearised about zero flow report a flow that did not enter the mass balance | nsuperlink.py 1037–1131, 1534–1613 | `Control.C27_orifice_at_rest` and weir, pump |
| C29 | top width of parabolic and elliptical sections is not the derivative of the area (iff) | ngeometry.py | `Geometry.C29_parabolic_iff`, `C29_elliptical_iff` |
| C31 | wetted perimeter of a full closed rectangle leaves out the ceiling | ngeometry.py | `Geometry.C31_rect_closed_perimeter` |
| C33 | tabular volume integrates depth over area, a tank has volume 0 (iff) | storage.py, nsuperlink.py | `Interp.C33_tabular_iff`, `C33_tank_volume_zero` |
| C34 | lowest depth of a table returns the smallest area of the table (iff), depths above the table the largest: the area jumps at bottom or top unless they are the first and last entries (iff) | storage.py, nsuperlink.py 1977–2001 | `Interp.C34_bottom_iff`, `Interp.C34_continuous_iff` |
| C37 | ponding misses a factor `dt` and counts runoff twice (iff) | ninfiltration.py | `Infiltration.C37_excess_iff`, `C37_creates_water` |
| C41 | `_theta_uk`, `_theta_dk` (and the areas of floodplain orifices) are neither saved nor restored: with storage or losses at superlink ends a step repeated after `load_state` can give other flows than the first time | superlink.py 3906–3953, nsuperlink.py 888, 942 | `Step.C41_retry_differs` |
| C42 | a retried step uses default tolerance and norm | simulation.py 572 | `Driver.C42_retry_ignores_tolerance` |
| C43 | `filter_step_size` raises `TypeError` after steps without subdivisions | simulation.py | listed under C43 |
| C47, C68 | reversing a pipe exchanges superjunctions but not offsets (iff) | superlink.py 300–313 | `Topology.C47_downhill_iff`, `C68_ends_kept_iff` |
| C49 | `_x_I[_I_1]` reads entry `2 _I_1` of the array (iff); end stretches misplace the centre; links of length 0 possible | nsuperlink.py 3170, 3174 | `Reposition.C49_succeeds_iff`, `C49_end_stretch`, `C49_lengths` |
| C51 | `SR=True` always raises | simulation.py 454–501 | `Kalman.C51_square_root_raises` |
| C56 | without dispersion nothing enters or leaves a pipe | nquality.py 1090 ff. | `Quality.C56_nothing_enters`, `C56_nothing_leaves` |
| C57 | mass changes by `(V - V_prev)(c - c_prev)` (iff) | nquality.py 409–472 | `Quality.C57_conserved_iff` |
| C59 | `step()` without `dt` raises `TypeError` | superlink.py 4015 ff. | `Driver.C59_hydraulics_never_completes` |
| C60 | `_k_1k` is wrong when superlinks have different link counts (iff) | nsuperlink.py 1460–1509 | `Lsq.C60_offset_iff` |
| C61 | norm 1 sums signed errors, norm 0 counts only the heads where the coarse solution is above and takes heads that are not finite for agreement | simulation.py 334–348 | `Driver.C61_norm1_cancels`, `C61_norm0_one_sided`, `C61_norm0_nan` |
| C62 | upstream friction of `bc_method='b'` has the wrong sign, neither end divides by `g A` | nsuperlink.py 851–957 | `Superlink.C62_upstream_discrepancy` |
| C64 | perimeter at the ends of elliptical superlinks is never recomputed | nsuperlink.py 482 ff. | `Geometry.C64_elliptical_stale` |
| C65 | storage tables are exchanged unless the dictionary is alphabetical | nsuperlink.py 413–480 | `Interp.C65_reads_other` |
| C66 | cumulative infiltration becomes negative in dry steps, on every soil | ninfiltration.py | `Infiltration.C66_negative` |
| C67 | slope of the downstream stretch depends on the length of the upstream one (iff) | superlink.py 732–737 | `Topology.C67_downstream_iff` |
| C69 | without a `name` column results of a permuted model carry wrong labels (iff) | superlink.py, simulation.py | `Topology.C69_unnamed_iff` |
| C70 | scalar process noise moves fixed heads | simulation.py 454–501 | `Kalman.C70_boundary_moved` |
| C71 | the square-root filter uses the lower Cholesky factor as upper and ignores `C` | utils.py 138–185 | `Kalman.C71_square_root_result` |
| C72 | default covariances raise `LinAlgError` | simulation.py 454–501 | `Kalman.C72_defaults_raise` |
| C73 | covariance transition omits end-stretch storage and uses the undivided step (iff) | superlink.py 3852–3877 | `Kalman.C73_iff`, `C73_understated` |
| C77 | after a move upstream one link receives the flow of a link further downstream | nsuperlink.py 3202–3209 | `Reposition.C77_flow_upstream` |
| C78 | a link's volume change is taken from the areas, the flow balance from width times depth change (iff); circular pipes never agree on a rise below half full; dry pipe ends and unclipped heads neither; with `num_iter > 1` the previous areas are those of the last iterate | nquality.py 228–279, 1647–1761 | `Quality.C78_link_iff`, `C78_superjunction_iff`, `C78_circular_never_balances`, `C78_iterated_iff` |
| C79 | the shape code of link 0 is used for every link; end stretches read the diameter of link number `k` instead of superlink `k`'s | nquality.py 228–279 | `Quality.C79_mixed_violated`, `C79_end_violated` |
| C59 | the quality `step()` without `dt` never completes either | nquality.py 952–1000 | `Quality.C59_quality_never_completes` |
| C80 | the water-quality filter starts from the estimate zero (iff) | nquality.py 217–221, 1763–1780 | `Quality.C80_first_call_iff`, `C80_first_boundary_lost` |
| C81 | the filter ignores `c_min`, `c_max` and moves prescribed concentrations | nquality.py 1778, 1062–1065 | `Quality.C81_no_upper_limit`, `C81_boundary_moved` |
| C83 | rows of fixed superjunctions keep `V/dt` in the transition matrix (iff) | nquality.py 1068 | `Quality.C83_transition_iff` |
| C84 | an explicit `t_start` does not move the clock and has no effect on any later operation (iff) | simulation.py 151–158 | `Record.C84_given_start_iff`, `C84_given_start_ignored` |
| C85 | the constructor records the state before the model's last step under the time after it (iff) | simulation.py 227–232 | `Record.C85_initial_iff`, `C85_initial_stale` |
| C88 | inflow is sampled at step ends: off by `dt/2` times the change of the series, pulses between step ends are lost | simulation.py 576–624 | `Record.C88_difference_partial`, `C88_missed` |
| C89 | equal start and end time: `ZeroDivisionError` | simulation.py 315 | `Record.C89_violated` |
| C90 | spin-up resets the clock but not the saved clock | superlink.py 3968–3970 | `Record.C90_reload_time` |
| C91 | normal depth is never computed, critical depth never imposed on mild slopes (iff); an outfall without flow raises | superlink.py 4069–4073 | `Exit.C91_mild_iff`, `C91_rest_raises`, `C91_outfall` |
| C92 | the search for critical depth raises at zero and very large discharges (iff) | superlink.py 3563–3576 | `Exit.C92_raises_iff`, `C92_large_raises` |
| C94 | end depths from flows are 0 for every superlink of one link | superlink.py 3167 ff. | `Nnls.C94_alt_single` |
| C95 | rows of fixed superjunctions give `D + Q` instead of the prescribed head (iff) | superlink.py 3811–3904 | `Diag.C95_holds_iff`, `C95_violated` |
| C96 | means over links of unequal length; opposing flows cancel | superlink.py 3789–3809 | `Diag.C96_uniform_flow_iff`, `C96_opposing` |
| C97 | an orifice below a tabular storage of constant area never passes water (consequence of C33) | nsuperlink.py 448, 1557–1560, 2645 | `Diag.C97_tank_never_drains` |
| C99 | `V_j` lags one step behind `H_j` (iff) | superlink.py 4030 | `Diag.C99_current_iff` |
| C101 | areas are taken at the old level: a storage widening upwards gains water whenever its level moves | nsuperlink.py 666–697 | `Step.C101_creates_water`, `C101_cycle` |
| C102 | with numba a saturated element stays saturated for ever: the bounded root finder cannot exceed the supply, which the test for leaving saturation requires | ninfiltration.py 122–170 | `Infiltration.C102_saturated_for_ever`, `C102_dry_for_ever`, `C102_every_soil` |
| C103 | without numba the first ponding of an element raises `RuntimeError`; the saturation flags of the two classes differ after dry steps | infiltration.py 191–319 | `Infiltration.C103_fresh_raises`, `C103_every_soil`, `C103_flag` |
| C104 | without numba no model can be constructed: `_setup_step` passes `_dt=` to the two head-coefficient methods of the base class, which do not accept it (`TypeError`) | superlink.py 2304, 2348, 4040–4041; hydraulics.py 1–9 | `Binding.C104_base_step`, `C104_base_construct`, `C104_only_two` |
| C107 | the error is scaled by heads above datum: any difference passes above a low enough datum, and some datum rejects even equal solutions (iff) | simulation.py 322–332 | `Driver.C107_scaled_iff`, `C107_high_accepts`, `C107_some_datum_rejects` |
| C111 | interior depths are solved from the downstream end; once one is cut at the section height (or the minimum depth) the links above it get a flow that depends on the direction in which the superlink was entered: a symmetric superlink between equal heads shows a flow | nsuperlink.py 2202–2236 | `Step.C111_cut_depths_show_the_direction` |
| C112 | the pure-Python circular and closed rectangular sections ignore the slot width of the table (always 0.001), the compound section raises NotImplementedError | geometry.py 94–122, 194–219, 880–897 | `Geometry.C112_circular_width_iff`, `Geometry.C112_rect_closed_width_iff`, `Geometry.C112_floodplain_raises` |
| C114 | an unknown link (or orifice) shape is accepted: it gets code 0, the link keeps area, perimeter, radius and width 0 for ever; an unknown transect name selects the first transect; the shared dictionary `geom_code` is extended by the unknown names | nsuperlink.py 309, 321–322, 372–373, 381–382 | `Config.C114_unknown_shape`, `Config.C114_unknown_transect` |
| C120 | Darcy–Weisbach friction uses a constant viscosity (1.0034e-6) and the factor `0.01274 g`, which is the 1/8 of the formula only for `g = 9.81`; it has no similar model at another scale, whatever the roughness | nsuperlink.py 2046–2055 | `C120_darcy_weisbach` |
| C121 | above a table the base class keeps the last area, the numba class takes the largest one (below: the first, the smallest); the two differ for storages that narrow | storage.py 84–86, nsuperlink.py 1994–1997 | `C121_above_iff`, `C121_below_iff`, `C121_witness` |
| C122 | numba class: an entry of `storages` that no tabular row names is a KeyError | nsuperlink.py 457 | `C122_constructor_iff`, `StorageEx.unused` |
| C122 | numba class: a tabular row whose name is unknown, or tabular rows without `storages`, pass the constructor and fail (or read out of bounds) at the first step; the base class silently keeps the old area for ever | nsuperlink.py 436, 692–695; superlink.py 1713–1715, 1960–1963 | `C122_step_iff`, `C122_no_dictionary`, `C122_base` |
| C122 | numba class: a functional row with a name in the column `table` gets the table, not its formula (the base class uses the formula) | nsuperlink.py 441–442, 692–695 | `C122_numba`, `C122_overwritten` |
| C123 | `link_concentrations_from_recurrence` passes the arguments of `c_i_b`, `c_i_f` in the wrong order and returns `Y·X + Z + c_N·c`, `V·U + W + c_1·c`; in clean water the result is a coefficient of the recurrence, not zero | nquality.py 944–949 | `C123_concentrations_code`, `C123_concentrations_iff`, `C123_clean`, `C123_witness` |
| C124 | with `end_method='o'` the forward sweep of the base class drops the storage of the first junction and the backward sweep that of the last one, so the two describe different flows through the same superlink; the numba class ignores the option in its sweeps | superlink.py 2188–2192, 2260–2264 | `C124_storage_dropped`, `C124_two_flows_iff`, `C124_witness` |
| C124 | where `U_{I-1} - E_I` vanishes the base class gives the link no flow, the numba class raises `ZeroDivisionError` | superlink.py 1300–1312; nsuperlink.py 2432 | `C124_vanishing_divisor` |
| C125 | the base class damps `a`, `c` and `P` but not `b`, so with inertial damping uniform flow is not kept | superlink.py 2099–2100 | `C125_b_damped_iff`, `C125_uniform_flow_iff` |
| C125 | at a control structure the base class loses `A\|Q\|/(A_c C)²`, the numba class `C A\|Q\|/A_c²`; they agree only for `C = 1` or no flow | superlink.py 1199; nsuperlink.py 2091 | `C125_b_control_iff` |
| C125 | the base class leaves the stretch between the end junctions and the pipe ends out of `E` and `D` | superlink.py 2138–2157 | `C125_ends_iff` |
| C126 | the end loss of the base class divides by `C²`, that of the numba class multiplies by `C`; they agree only where nothing is lost or `C` is 0 or 1 | superlink.py 1395–1411; nsuperlink.py 2680–2698 | `C126_loss_iff`, `C126_loss_down_iff`, `C126_loss_larger` |
| C126 | the base class uses `theta` for the end flows and not for the end depths: below an invert it reports a negative depth which contradicts the flow | superlink.py 2440–2469, 3157–3158 | `C126_depth`, `C126_relations_iff`, `C126_negative_depth`, `C126_witness` |
| C126 | `bc_method='j'` does not reproduce the state it is linearised at unless the section is rectangular or there is no head difference (`mu` has `A (dH + z)` where the linearisation has `A (z - dH) + 2 dH B h`) | superlink.py 1431–1438, 1458–1465 | `C126_ji_upstream_iff`, `C126_ji_downstream_iff` |
| C126 | the base class rejects `'b'`, the numba class rejects `'j'` | superlink.py 2346; nsuperlink.py 903 | `C126_common_method` |
| C127 | a depth raised to `min_depth` during the march no longer belongs to the flow it was computed from: the result solves the equations for no end flows | superlink.py 3266, 3375 | `C127_raised_forwards`, `C127_raised_backwards`, `C127_witness` |
| C127 | the base class knows no maximum depth; it agrees with the numba class exactly where none is exceeded | superlink.py 3376; nsuperlink.py 2230–2233 | `C127_numba_iff` |
| C128 | depths are looked up as elevations: a survey above elevation zero raises `ValueError` for an empty link, one below it is always bank-full | geometry.py 925–955 | `C128_raises_iff`, `C128_always_full`, `C128_witness` |
| C128 | the tabulated area overstates the section wherever a stretch crosses the level (trapezoidal rule on a clipped depth) | geometry.py 957–971 | `C128_area_iff`, `C128_witness` |
| C128 | the tabulated width counts stations, not stretches: bank-full it exceeds the span by the factor n/(n−1), and it is the growth of the area only while both ends are dry | geometry.py 1003–1020 | `C128_bankfull_width`, `C128_width_iff` |
| C128 | the tabulated perimeter of a straight submerged bed is n/(n−1) times its length | geometry.py 973–992 | `C128_straight_bed` |
| C129 | getters return and setters store the working arrays, and every step overwrites those of `h_Ik`, `A_ik`, `Pe_ik`, `R_ik`, `B_ik`, `A_uk`, `A_dk`, `A_sj`, `V_j` (and `Q_ik` with the marching methods): a depth read before a step equals the one read after it; a reload silently cuts the connection | superlink.py 775–925, nsuperlink.py 482–697, 1385–1509, 1615–1649 | `C129_live`, `C129_no_change_seen`, `C129_assigned_overwritten`, `C129_detached` |
| C130 | setters use `np.asarray` without a type, so an integer array stays one: in the base class all later depths (flows, areas) are truncated to whole numbers; the compiled kernels refuse the array | superlink.py 775–925 | `C130_stays_integer` |
| C131 | `m_to_in = 39.97` instead of 39.37: depth and recovery rate of the upper zone are 0.76 % too large and the recovery time too short by the same factor, for every soil | infiltration.py 53–61 | `C131_never_exact` |
| C133 | the right-hand side takes `self.H_j`, the last iterate, instead of the heads at the start of the step: an iterated step of the pure-Python class converges to a steady state whatever the storage and the time step | superlink.py 2867 | `C133_iterated_steady` |
| C133 | the storage of pipe ends is missing in the pure-Python class | superlink.py 2743–2766 | `C133_pipe_ends` |
| C133 | a superlink from a superjunction to itself overwrites the diagonal entry of that superjunction | superlink.py 2751–2759 | `C133_loop` |
| C133 | heads are kept `min_depth` above the invert in the pure-Python class and at the invert in the compiled one | superlink.py 2917–2919, nsuperlink.py 1337–1339 | `C133_floor` |
| C134 | the pure-Python class never reads the one-way flag: water flows back through every one-way orifice it reaches | superlink.py 2512–2542, 3020–3050 | `C134_oneway_ignored` |
| C134 | at equal heads the two classes limit an orifice's flow by different stores | superlink.py 3052–3057, nsuperlink.py 1557–1560 | `C134_equal_heads` |
| C134 | pumps of the pure-Python class raise `AttributeError` at the first step: `_ap_h` and `_ap_q` are set only if there are none | superlink.py 599–634, 2629 | `C134_pumps_missing` |
| C134 | and with those attributes supplied, two or more pumps always raise `ValueError`, whatever the heads | superlink.py 2647–2648 | `C134_two_pumps` |
| C134 | the linearised pump curve of the pure-Python class is off the curve for falling water | superlink.py 2649–2666 | `C134_ellipse_falling` |
| C135 | flows are taken along the index array twice: after a move past two junctions a link that stayed where it was gets the flow of another one | superlink.py 3713–3714 | `C135_two_places`, `C135_two_places_up`, `C135_witness` |
| C135 | `reposition` masks are applied after the views have been written: every excluded superlink is left with its mobile junction behind the last one | superlink.py 3691–3698, 3724–3731 | `C135_excluded` |
| C135 | the number of internal links is fixed at four: any other raises | superlink.py 3671–3678 | `C135_four_links` |
| C135 | the merged link gets the plain mean of the flows (the compiled class weights them) | superlink.py 3709–3711 | `C135_mean_iff` |
| C136 | a superlink traversed against its direction is silently left out (the constructor turns superlinks downhill), and of parallel superlinks all but the last | visualization.py 65–68, 80 | `C136_upstream`, `C136_parallel` |
| C136 | if no superlink of the path is found the vertical axis is upside down | visualization.py 71–72, 96–97 | `C136_upside_down` |
| C136 | with an upstream end stretch the superlink is drawn that far beyond the beginning of the next superjunction | visualization.py 32–39, 84; superlink.py 499–501, 756–757 | `C136_overlap` |
| C136 | a path of fewer than two superjunctions raises UnboundLocalError | visualization.py 90 | `C136_needs_two` |
| C137 | with an upstream end stretch junctions are shown displaced, the last beyond the downstream superjunction | visualization.py 116–118, 170–177 | `C137_ends`, `C137_beyond` |
| C137 | the vertical axis starts at the lowest water surface, so the lowest bed is off the axis whenever there is water everywhere | visualization.py 247–250 | `C137_bed_below` |
| C140 | the pure-Python root finder has other defaults than the compiled one (1000 iterations, 1e-8), and a search that fails returns `None` where the compiled one raises | utils.py 38–98, nutils.py 77–142 | `Root.C140_same`, `C140_defaults` |
| C141 | tables of surveyed sections are sampled at levels from zero to the highest station but read with the depth above the lowest one | nsuperlink.py 351, 1903, 1911–1914 | `Geometry.C141_datum_iff`, `C141_dry`, `C141_never_empty`, `C141_bankfull` |
| C142 | the filter solves again without control signals: pumps stop, weirs close, orifices report too much | simulation.py 501, superlink.py 4052–4083, nsuperlink.py 1534–1613 | `Step.C142_pumps_stop`, `C142_weirs_close`, `C142_orifice_exceeds` |
| C143 | the constructor of the quality model makes a hidden step of 1e-6 s over the level change of the last hydraulic step: filled tanks start diluted, half-drained tanks start clean | nquality.py 225, 228–279 | `Quality.C143_tank_iff`, `C143_filled`, `C143_erased`, `C143_faces` |
| C144 | the end stretches of superlinks do not react, whatever `K` the tables give | nquality.py 385–386, 391–392 | `Quality.C144_uniform_iff`, `C144_stretch_excess` |
| C145 | a saturated element infiltrates at capacity for the whole step even if the supply is below the capacity at its beginning; and elements stay flagged as saturated | ninfiltration.py 150–162 | `Infiltration.C145_saturated_iff`, `C145_overshoot` |
| C147 | the hidden step of 1e-6 s in the constructor turns a mismatch between given pipe depths and given heads into end flows of a million times the missing volume; these throttle the entrance in the next step | superlink.py 770 | `Step.C147_not_kept`, `C147_end_flow`, `C147_throttled` |
| C147 | a model with a circular or elliptical orifice cannot be constructed: the hidden step closes all orifices and closing a round one divides by zero | superlink.py 770, nsuperlink.py 659–662 | `Step.C147_round_orifice` |
| C149 | raising dry pipe ends to `min_depth` creates water in every step, independent of the step size; two empty tanks joined by a dry channel with perched ends fill themselves, the faster the smaller the steps | nsuperlink.py 1417, 1454 | `Step.C149_water_from_nothing`, `C149_fills_in_any_time`, `C149_perched_down` |
| C149 | limiting heads to the invert or the maximum depth creates or destroys at least the free surface times the correction | nsuperlink.py 1338–1339, 1380–1381 | `Step.C149_heads` |
| C151 | a `method` which is not one of the four known strings is not refused: every run completes, fixed heads follow what is prescribed, the superjunctions exchange water with the pipes, and no depth or flow inside a pipe ever changes, so that water is lost | superlink.py 4074–4081 | `C151_runs`, `C151_frozen`, `C151_water_lost`, `C151_heads_follow` |
| C151 | any `end_method` but `'o'` is taken for `'b'` without a word | nsuperlink.py 991–998 | `C151_end_method_ignored` |
| C151 | the two classes accept different strings for `bc_method` (`'z'`, `'b'` and `'z'`, `'j'`); they agree on the default only | nsuperlink.py 889–903, superlink.py 2325–2346 | `C151_bc_refused`, `C151_bc_refused_base` |
| C152 | where a pipe ends above the water in its superjunction the head coefficients are switched to zero (theta = 0), which forces the depth of that end to zero within the step; whatever the length of the step, all the water of the last half link is thrown into the superjunction, whose head may then rise far above every level there was. Merely constructing a model with levels of at most 2 m gives a head of at least 5.5 m | nsuperlink.py 884–894, 942–952; superlink.py 770 | `C152_perched`, `C152_constructed` |
| C153 | a channel which ends above the water of its superjunction: every step, however short, raises the head of the superjunction by the same 5 m (the end depth is set to zero at once, not at a rate). Reducing the step size makes such a simulation no better, and the retry logic of `Simulation`, which reduces it, cannot help | nsuperlink.py 942–952 | `C153_jump` |
| C154 | a channel, at rest and level with a fixed head, ends above the water of its superjunction: the constructor returns a model whose energy about the fixed head is more than five times the energy of the state given (6.1 against 1.1) | nsuperlink.py 942–952, superlink.py 3138–3165 | `C154_perched` |
| C155 | without inputs and without `t_end` the end time is infinite: the documented loop never ends | simulation.py 164–170 | `C155_endless` |
| C155 | the adaptive loop with the default of one subdivision: the second call of `filter_step_size` raises `TypeError` (there is no error estimate) | simulation.py 437–442, 540–560 | `C155_no_estimate` |
| C156 | more lateral inflow into the first junction of a pipe that runs forward faster than its entrance loss balances (any forward flow if there is no entrance loss) lowers the level downstream: the inflow displaces inflow from upstream, and with it the momentum the upwind term takes from it | nsuperlink.py 2061–2073, 2136–2160 | `C156_held_back`, `C156_not_kept` |
| C158 | for flows from that of the full pipe to 1.05 times as much there are two normal depths; for larger flows (above `A/n (d/2)^(2/3) √S`), reversed flow, flat pipes with flow and rising pipes there is none (rising: the residual is `nan`) | superlink.py 3592–3600, 3638–3641 | `Exit.C158_two`, `Exit.C158_none` |
| C160 | the test whether to iterate compares heads before and after the first pass, flows are not looked at: a channel between two fixed heads is never iterated, and the first flow from rest is that of a channel without friction, whatever `num_iter` and `head_tol` | superlink.py 4129–4134 | `Step.C160_fixed_heads`, `Step.C160_friction_ignored` |
| C160 | the passes of a step need not converge: a basin draining over a weir whose slanted sides carry the share β > 1/2 keeps jumping once the weir, at the solution, drains in one step more than 2/(2β−1) times what the basin holds above the crest; up to that size, and always if β ≤ 1/2, the passes converge | superlink.py 4128–4148, nsuperlink.py 2656–2665 | `Step.C160_passes_converge`, `Step.C160_wide_weirs`, `Step.C160_passes_diverge` |
| C161 | the regime of a weir is chosen by the heads before the step: with the receiving water at the crest, lowering the crest by any amount passes less water in the step exactly if the receiving water rises in it, and the source ends higher | nsuperlink.py 2823–2868 | `Step.C161_weir_passes_less`, `Step.C161_lowered_weir_passes_less` |
| C162 | between sill and crown the driving head is measured from the sill with the full area, above the crown from half the opening (or the receiving water): when the source passes the crown the flow of a freely discharging orifice falls by the factor √2 | nsuperlink.py 2785–2816 | `Control.C162_crown_iff`, `Control.C162_crown_jump`, `Control.C162_fuller_tank_discharges_less` |
| C165 | the end loss multiplies the flow before the step by the flow after it: it is the loss of the reported flow only if that kept its size; after two steps the end flow has its old size apart from the ratio of the losses, so it alternates; from 1 it leaps to 1.9 however short the step | nsuperlink.py 891, 2680–2698 | `Step.C165_iff`, `Step.C165_two_steps`, `Step.C165_alternates`, `Step.C165_leap` |
| C166 | orifice flow jumps where the source passes the crown (driving head from the sill below, from mid-opening above) and, between sill and crown, where the two waters pass each other: at equal levels the full flow of the head above the sill is reported, with the sign of the order of the heads | nsuperlink.py 2785–2817 | `Control.C166_orifice_iff` |
| C167 | a shut circular or elliptical orifice makes every step raise; a shut floodplain orifice keeps the area of the table and discharges over its sill | nsuperlink.py 1853–1883 | `Step.C167_round_raises`, `Step.C167_floodplain_flows` |
| C168 | a second `kalman_filter` call after the same step propagates the covariance by the transition matrix once more and adds the process noise again: two gauges read in two calls leave another covariance and other heads than one call with both | simulation.py 489–501, nutils.py 190 | `Kalman.C168_predicts_twice`, `Kalman.C168_two_calls_differ` |
| C169 | every orifice is limited by itself to the whole volume of its source divided by the step size: where the limit binds, an orifice divided into two parts draws strictly more than the whole one and more than the source holds | nsuperlink.py 1557–1560 | `Step.C169_limited` |
| C172 | the advective term documented is `u_{I+1} Q_{I+1} − u_I Q_I`; the coefficients of the code leave out `(u_{I+1} − u_I) Q_i`. Steady flow has no velocity head: the surface never rises along the flow, and the energy line rises along a narrowing pipe | nsuperlink.py 2061–2097; docs/governing-equations.md | `Step.C172_documented_iff`, `C172_surface`, `C172_energy_iff`, `C172_no_rise`, `C172_energy_rises` |
| C173 | the documentation calls `C_uk`, `C_dk` and `C` discharge coefficients (`Q = C A √(2 g ΔH)`); the numba class uses them as loss coefficients, so that a larger one passes less water. The default `1/0.67²` is meant for the numba class; in the pure-Python class, which follows the documentation, it is a discharge coefficient of 2.23 | nsuperlink.py 2092, 2680–2698; superlink.py 486–493; docs/governing-equations.md 41–50 | `Step.C173_inlet_iff`, `C173_outlet_iff`, `C173_structure_iff`, `C173_inverse_square`, `C173_base` |
| C176 | the Darcy–Weisbach branch has the constant `0.01274` where the formula has `1/(8 g)` (SI: `0.012742` at `g = 9.81`), so that its loss is that of the formula for no `g` in use (the deviation is small) | nsuperlink.py 2046–2052 | `Step.C176_darcy_weisbach_iff`; kept: `C176_manning`, `C176_hazen_williams`, `C176_uniform` |
| C177 | the friction factor of Swamee and Jain is used for every Reynolds number; near 7 its logarithm vanishes: the program divides by zero there, and smaller flows lose more head than greater ones | nsuperlink.py 2046–2052 | `Link.C177_slow_flow`, `C177_not_monotone`; kept: `C177_grows`, `C177_turbulent` |
| C79 | end depths are measured from the floor of the superjunction; pipes that start above it get too large an area at their ends | nquality.py 1680–1709, 1721–1749 | `Quality.C79_inlet_iff`, `C79_outlet_iff` |
| C178 | `theta` switches the connection of a pipe end to the head of its superjunction on or off by the head *before* the step: a pipe end at rest reports the new depth or the minimum depth according to whether the old head was at the invert or a hair below. `gamma_o` is `0` at zero flow and unbounded near it | nsuperlink.py 884–888, 940–943, 2645–2654 | `Step.C178_invert_jump`, `C178_orifice_jump`; kept: `C178_continuous_partial`, `C178_controls`, `C178_call_partial`, `C178_run_partial` |
| C179 | an orifice filled in part discharges although the levels on its two sides are equal (see C20): two of them in opposite directions carry water round for ever | nsuperlink.py 2785–2817 | `Step.C179_perpetual`; kept: `C179_rest`, `C179_power`, `C179_superlink`, `C179_step`, `C179_rest_partial` |
| C182 | top width of a pipe jumps from 0 to the slot, of a closed rectangle from its width to the slot, when it becomes full (iff) | ngeometry.py 133–137, 240–244 | `Geometry.C182_slot_iff` |
| C183 | a compound section counts as one: when a river rises above its banks its computed conveyance drops (witness: by a quarter for 1 cm) | ngeometry.py 915–1064 | `Geometry.C183_banks` |
| C183 | a round pipe at 0.933 of its diameter carries 5 % more than full (physics, no defect) | ngeometry.py 22–80 | `Geometry.C183_pipe` |
| C187 | `z_inv_uk`, `z_inv_dk` are elevations, not the documented offsets above the superjunction; equal only for inverts at zero (iff) | superlink.py 278–279, 378–379 | `Topology.C187_offset_iff` |
| C187 | assigning `z_inv_uk`/`z_inv_dk` leaves the slopes as they were: between equal heads a submerged superlink then flows for ever (iff); assigning `z_inv_j` leaves the pipe ends as they were (iff) | superlink.py 899–917 | `Step.C187_assigned_level_iff`, `Topology.C187_inverts_iff` |
| C189 | over a weir whose slanted sides carry the share β > 1/2 of the inflow, the level converges to nothing once a step brings more than 4/(2β−1) times the volume between crest and steady level, unless it starts exactly there; up to that size, and always if β ≤ 1/2, it settles from every first level | nsuperlink.py 2656–2665, 2823–2868 | `Step.C189_settles`, `Step.C189_any_step`, `Step.C189_unsettled` |
| C191 | an elliptical orifice keeps its full width while its height is scaled by the opening, so with water below half of the opening, opening further strictly reduces area and flow; the flow law measures the opening by `y_max`, the area by `g1` (`sqrt(A)` if the table has no shapes): if `g1` is larger, opening a side orifice further can strictly reduce the flow | nsuperlink.py 1856–1886, 2785–2806; superlink.py 513–523 | `Geometry.C191_elliptical_area`, `Control.C191_elliptical`, `Control.C191_heights` |
| C193 | positions are written by masks in row order: if the junction table has the superlinks in another order than the link table, superlinks get each other's positions (wrong in plots and when junctions are repositioned) | superlink.py 499–501 | `Topology.C193_turned` |
| C196 | a negative inflow removes `Q c_0` with the concentration prescribed for inflows (default 0), not with the concentration of the water: the substance stays behind; if more is drawn off than remains in a tank the solver's concentration is negative and the limit removes the substance, at exactly half the system has no solution | nquality.py 681–684, 726, 1157–1160 | `Quality.C196_default_iff`, `Quality.C196_tank_rises`, `Quality.C196_tank_lost`, `Quality.C196_tank_singular` |
| C199 | a matrix with one column (a single noise signal in `C`) is taken for a vector: `np.diag` keeps its first entry, and the initial covariance is an exception or a number | simulation.py 168–205 | `Kalman.C199_matrix_iff`, `C199_column`, `C199_single_signal` |
| C199 | `Qcov` and `Rcov` are documented (and by default) `M × M`, but the formulas need `a × a` and `b × b`: other numbers of signals or observations raise (iff) | simulation.py 63–70, 166–185 | `Kalman.C199_signals_iff`, `C199_observations_iff` |
| C199 | the shapes documented at `kalman_filter` (`Z: b × 1`, `H: M × b`, `C: a × M`) are transposed: accepted only for `b = M` and `a ∈ {M, 1}`, and then the new right-hand side is a matrix | simulation.py 461–468, nutils.py 165–184 | `Kalman.C199_documented`, `C199_documented_iff` |
| C201 | the scaled error divides by `1e-6 + 1e-3·max(H, H_prev)`, which is 0 for a head of -1 mm: a steady flow at that head is rejected at every step size | simulation.py 323–332 | `Driver.C201_minus_one_mm` |
| C203 | `record_state` silently ignores variables that are not keys of `model.states` (e.g. `R_ik`, `B_ik`), and those that are keys but not among the nine default variables (e.g. `A_ik`, `V_j`) stay dicts after the block | simulation.py 239–247, 278–283 | `Record.C203_asked_iff`, `C203_dropped`, `C203_violated` |
| C206 | transects in the documented form (lists) raise `AttributeError`, integer arrays `TypeError`; the documented `horiz_points` and `vert_points` are ignored, the undocumented `sample_points` is used | nsuperlink.py 141–146, 348–352; docs/model-inputs.md 236–242 | `Config.C206_documented_refused`, `C206_whole_numbers_refused`, `C206_points_ignored`, `C206_vert_points_iff` |
| C206 | the constructor writes `sample_points` into the user's dictionary; `geometry.Irregular` does not know that key, so the pure-Python class refuses the dictionary afterwards (`TypeError`), as it does the form its own docstring describes | nsuperlink.py 350; superlink.py 138–142, 396, 1645; geometry.py 901 | `Config.C206_written_iff`, `C206_base_refuses_read`, `C206_base_refuses_own` |
| C208 | without numba no network can be built: `_shape_ik` is stored as a numpy array (`.values`) and used as a series (`.str`), `AttributeError` for every input | superlink.py 434, 1623 | `C208_cannot_be_built` |
| C208 | with that repaired: a transect of the dictionary that no first (last) link of a superlink uses raises `KeyError` if any first (last) link is irregular; an irregular link with an unknown transect silently keeps area 0 | superlink.py 1764–1765, 1827–1828, 1886–1887 | `C208_inner_transect`, `C208_returns_iff`, `C208_values` |
| C208 | and orifices of two different shapes raise `ValueError` or `IndexError`: the depths of all orifices are combined with the dimensions of one shape | superlink.py 1922–1931 | `C208_orifices_iff` |
| C210 | runoff is also kept as a pond and infiltrates later: over a run infiltration plus runoff exceed the rain by all that infiltrated from ponds; a pond of depth `d` left to dry yields `dt d` of infiltration | infiltration.py 366–374 | `C210_account`, `C210_balanced_iff`, `C210_twice`, `C210_dry_limit` |
| C212 | a partly filled parabolic section has too large an area (by the square root of height over depth) and too long a wetted perimeter (that of a parabola as wide as the full section) | ngeometry.py 557–613 | `C212_parabolic_area`, `C212_parabolic_perimeter` |
| C213 | pipes whose sections are not rectangular gain water (widening sections) or lose it (upper half of a circle) in every step in which their level changes, whether it rises or falls: the continuity equation uses the width at the old level | nsuperlink.py `numba_node_coeffs`, superlink.py 4025–4033 | `C213_gains`, `C213_circle`, `C213_refuted` |
| C214 | without `inertial_damping` the attribute `_supercritical` is never created, so `supercritical_only` and `subcritical_only` raise `AttributeError`; a superlink flowing fast towards its upstream end is marched forwards too | superlink.py 2067, 3231, 3339, 4034–4035 | `C214_undamped`, `C214_reverse` |
| C215 | after a first rejection the outcome of a call does not depend on the caller's `tol` and `norm` at all; `_iter_count` counts attempts (each level of the recursion adds one) | simulation.py 562–574 | `Driver.C215_forgets`, `C215_attempts`, `C215_full_iff` |
| C33 | at a negative depth `storage.Functional` reports the bottom area but a constant volume (the solvers never ask: depths are at least `min_depth`) | storage.py `Functional` | `Interp.C33_base_below_iff` |

Seen while reading and not modelled (no theorem stands behind these):

* `sparse=True` stores `A`, `O`, `W`, `P` as `scipy.sparse.lil_matrix` (superlink.py 683–694), and the numba
  class passes them to compiled kernels (nsuperlink.py 1228–1277), which take arrays.
* `_critical_depth` uses `np.asscalar` (superlink.py 3636), which newer numpy versions no longer have.
* An unknown `norm` reaches a bare `raise` outside an `except` (simulation.py 346); the model has a
  `RuntimeError` there.

## 5. Testing the theorems

`/verif/seeded/LOG.jsonl` records edits of model definitions that imitate realistic bugs, made in a scratch
copy and rebuilt: which theorems failed, which claim should have failed and, where a theorem still
passed, how the statement was tightened.

A theorem can only fail because of an edit if its module imports the edited file. All records were checked for
this; entries naming theorems younger than the edited copy were removed (r18-32 names two theorems that have
since been replaced). Four records (r22-17-retest, r26-01 to r26-03) made while two runs shared the scratch
copy had mixed up results and were discarded; the log has their repetitions. Runs now exclude each other; for
older records the import check is the only evidence that they were not disturbed.
