# Formal model of mpopt in Lean 4 — design

Source modelled: `/repo/mpopt/mpopt.py` (the only non-trivial module of the package).

## 1. What kind of model

* **Numbers.** Python/numpy floats are modelled by an arbitrary linearly ordered field `K`
  (`[Field K] [LinearOrder K] [IsStrictOrderedRing K]`), so every theorem holds for ℚ (executable
  examples) and ℝ. Floating-point rounding is *not* modelled. Bounds may be infinite: they live in
  `Ext K` (`-inf`, finite, `+inf`, `nan`) with IEEE-style multiplication by a scale.
* **Exceptions** are values: `Except PyErr α`. Index errors, failed asserts, shape mismatches, unbound
  locals are explicit results, not totalised away.
* **Matrices** are `Mat K` = (rows, cols, entry function), with numpy/CasADi operations (column-major
  vectorisation, `mtimes`, `kron`, slice assignment with shape check) defined explicitly.
* **Polynomials.** `np.poly1d` = coefficient lists (highest first, as numpy), with `polymul` (convolution),
  `polyder`, `polyint`, Horner evaluation. CasADi SX expressions in the Lagrange basis = a small expression
  AST with evaluation and a symbolic `gradient`. Specifications use Mathlib's `Polynomial`, which the model
  does not use.
* **CasADi symbolics in the transcription.** A decision variable is a constructor of `Sym`; an SX
  expression is the function `Env → K` it denotes (`Env = Sym → K`). The NLP is a record of the variable
  vector (a list of symbols), objective, constraint vector and the four bound vectors. A CasADi `Function`
  with inputs `[Z, p]` is evaluation in the environment that binds the symbols to the input numbers.
* **User callables** are arbitrary functions `K`-lists → results. The optional `a` argument is
  `Option (List K)` (absent when `na = 0`). A path/terminal constraint returns `Option (List K)` (`None`).
* **External code** is a parameter with a recorded contract:
  * `scipy.special.j_roots(n,α,β)`: returns the `n` increasing roots in (-1,1) of the degree-`n`
    polynomial orthogonal to lower degrees for weight (1-x)^α(1+x)^β (predicate `IsJacobiRoots`; `C01_jacobi_contract`: over ℝ exactly one list
    satisfies it, so the contract is neither empty nor loose);
  * `numpy.leggauss(n)`: `n` numbers;
  * `cos(πj/d)`: Mathlib's real cosine;
  * CasADi's `integrator("idas")` on a polynomial right-hand side: exact integral;
  * the NLP solver: an arbitrary function (nothing assumed) in life-cycle and adaptive-loop theorems.
  * `np.linalg.norm(·, 2)` of a row: a function `norm` (an argument, nothing assumed unless a theorem says so);
  * iteration order of a Python `set`: an argument (`ks` in `Model/Cache.lean`);
  * numpy 1.22 (pinned in setup.py:27): arrays of rows of different lengths are object arrays. Later versions raise.
* **Not-a-number.** Where numpy would go on with `nan`/`inf` the model either carries them (`Ext`, `Option`), or
  stops with the pseudo-exception `PyErr.nonFinite`. `KeyError` is written `PyErr.index`.

## 2. Layout

| directory | content |
|---|---|
| `lean/Verif/Model/*.lean` | executable model, each definition cites the lines of `/repo` it models |
| `lean/Verif/Spec/*.lean` | small independent specifications used in statements |
| `lean/Verif/Lemmas/*.lean` | helper lemmas |
| `lean/Verif/Props/*.lean` | property theorems `Cnn_…`, each followed by non-vacuity examples |

## 3. Properties: what is modelled and how each is proved

* **C01** node functions of `CollocationRoots`; case analysis on the scheme; CGL with monotonicity of cosine on
  [0,π]; LG/unknown scheme: refutation theorems (length d) plus failure of the composite matrix.
* **C02–C05, C09** coefficient-list polynomials refined to Mathlib `Polynomial`; exactness from uniqueness of
  interpolation (degree < number of nodes); Gauss exactness from the orthogonality contract by division with
  remainder.
* **C06–C08** the composite-matrix loops (slice assignments) → closed-form entry theorem (induction over
  segments) → exactness on piecewise polynomials. C07 is refuted in general with a witness, proved under
  the exact guard (`first weight of later segments = 0`), and that guard is derived for LGR orders ≥ 2.
* **C10–C12** list layout lemmas (`Nodup`, membership, position, length).
* **C13** the carried-state loop is proved equal to a closed-form node table by induction.
* **C14–C19** evaluation of each constraint block; feasibility of block ⇔ physical statement.
* **C20** layout; closed form of the guess, refutation by witness for the controls with nu = 2.
* **C21, C22** dictionaries as association lists with Python update semantics; induction over the dictionary.
* **C23, C47** state machines; induction over histories.
* **C24, C25** composition of C10/C11 with evaluation of CasADi functions; numpy broadcasting of the parameter
  column is modelled, which refutes the claim for two or more parameters.
* **C26–C30, C44, C45, C48–C50** post-processing functions, composition with C08 and C13.
* **C31–C35** pure list functions of the h-adaptive class; induction and ordered-field arithmetic.
* **C36, C37** adaptive loop with arbitrary solver/residual oracles; loop invariant.
* **C38** mpopt_adaptive constraint blocks.
* **C39, C40** OCP record, defaults, `validate` as a function to `Except`.
* **C52–C55** composition: solver call ↔ NLP (C14, C15, C38) ↔ trajectory (`physOf`, its inverse `packEnv`) ↔ data shown
  (C25); induction over histories for `mpopt_adaptive`. The solver is a function argument; "sound" or "optimal" are
  hypotheses about it.
* **C56–C58** the continuous-time problem (`Spec/Continuous.lean`, real numbers, one-sided derivatives and interval
  integrals) related to the collocated one: exactness of interpolation, Gauss exactness (C05, C07) and counting zeros of
  polynomials at the collocated nodes. Other solutions: C83, C84.
* **C59–C62** the h-adaptive object with its own solver, residuals and slopes: the loop of C36, C37 with an invariant that
  ties the current solution to the current widths; check points of the residual functions described independently
  (`Spec/CheckPoint.lean`).
* **C63, C64** C56 for widths that are unknowns or come from the refinement loop: the exactness lemmas of `Props/Exact`
  hold segment by segment for any positive widths.
* **C65** the grids of `get_residual_grid_taus` compared with the nodes of the mesh; `Props/DefaultGrid` also carries
  C29, C48, C50 over from explicit points to the grids chosen by the code.
* **C66** `vstack` and `asanyarray` on rows and cells; the numbers of points per segment of the fixed grid are counted
  (`count_equal`).
* **C67** Gauss exactness (C05) for squares of nodal polynomials, with a linear factor for each fixed end; real numbers.
* **C68** the problem data of `examples/singlephase/ocp_with_solution.py`; the quadrature is exact on the cost integrand written
  as `½ (u - u*)²` plus a derivative, and positive weights (C67) force equality at the nodes.
* **C69** `validate` decided on the data of the scripts; velocity and clock telescope over the segments, so the
  quadrature of the thrust is a boundary term.
* **C70** trajectories as points of a product space indexed by the decision variables: the feasible set is closed
  (interpolants are linear in the node values), sublevel sets are compact.
* **C71** a figure is the list of its axes, axes are the list of their curves with labels; the curves are compared with series
  of node values and interpolants (`Spec/Plot.lean`), the residuals with the closed forms of C29 and C48.
* **C72** the loop of C36 compared with the sequence of stages (solution, widths, error) of `Spec/HCourse.lean`; an equivalence,
  so that a loop that stops too early or too late is refuted.
* **C73** the exact response to the interpolated controls (`Spec/Response.lean`) compared with the solution by Gronwall's inequality,
  segment by segment; the unit of the code's residual is kept, so that the recorded error enters the bound directly.
* **C74** a combination of Chebyshev polynomials vanishes at all nodes but one (discrete orthogonality of cosines) and has a
  positive integral (`Σ 2/(4l²-1) < 1`); exactness of the rule turns this into a positive weight.
* **C75** the problem of the user and that of the optimiser tracked along histories (`Problems`, a specification of its own);
  a reinitialising call on any object state is a call on a state that the earlier end-to-end theorems cover.
* **C76** a polynomial of degree `p` whose derivative equals `a y + b` at `p + 1` points satisfies the equation identically, hence
  is constant; the rest follows from the end-to-end theorems (C52, C54, C59).
* **C77** the derivative of a piece interpolates `dt/dtau` times the dynamics at all nodes but the first; Lebesgue constant, mean
  value theorem and the argument of C73 per unit of time.
* **C78** the composite rule segment by segment: each segment contributes its own weights without the first; uniform continuity of the
  integrand and the sum of the weights give the limit. The share of the first weight is 0 for LGR and positive for LGL and CGL (C74).
* **C79** the dynamics of each segment as a field on vectors of scaled states; Picard–Lindelöf on short intervals of fixed length, joined
  (`Lemmas/GlobalODE`). For a box the states are first clamped, which makes the dynamics Lipschitz everywhere; the error bound of C77 for
  the clamped dynamics then shows that the clamp is never active.
* **C80** `Spec/Flown.lean` weakens `SolvesContinuously` by tolerances, each in the scaled unit of the variable; with tolerances 0 it is that
  specification (`NearlySolves.exact`). The responses of C79 are joined over the segments and phases; every instant is compared with
  the last node of its segment, where the NLP holds; the cost follows from the quadrature bound of C78.
* **C81** the row lemmas of the transcription (`Lemmas/Rows` … `Lemmas/Nlp`) hold for any sense `W lo hi v` of "value between bounds";
  exact feasibility (C10–C19) and feasibility up to a tolerance (`Spec/Tolerance.lean`) are two instances of the same statement.
* **C82** the theorems behind C77, C79 and C80 are proved for collocation equations that fail by up to `κ` per unit of time
  (`CollocationRate`); C77, C79, C80 are the case `κ = 0`. A row tolerance `ε` gives `κ = ε / (dt/dtau)` of the shortest segment
  (`Sizes.Allows`), which is where the number of segments enters. Lipschitz constants (C77, C79, C80, C82) are needed for the
  parameters and times of the plan only, so that parameters may multiply states.
* **C83** the state minus its tangent at a node has small slope on the segment, so small values, so the interpolant has a small slope
  at the node (`Mesh.DerivBound`, a constant of the nodes).
* **C84** C83 makes the node values of a competing motion a point the solver had to consider; its promise (`SolverCall.BestNear`), the
  quadrature bound and C82 compare the true costs.
* **C85** drawing looks at the same residuals as the widths computed next and raises only if these do (`HOpt.watch_refine`), so the
  loops agree call by call (`HEnv.solve_congr`, `HEnv.loop_cut`).
* **C86** as C81: the row lemmas of `mpopt_adaptive` (`Lemmas/Adaptive`) hold for any sense of "value between bounds"; C38 and C86 are two
  instances (`Spec/ToleranceFree.lean`).
* **C87** the end of a phase is moved to the end of its last segment (`Traj.filled`), which changes no node value and no node time; only
  what depends on the end time alone (its bounds, terminal functions, events) changes, by `θ`. Then C82, whose theorems need of a plan no
  more than `MeetsTo`.
* **C88** C83 plus the rows half-way between nodes: values and slopes of an interpolant stay near the motion (`state_between`,
  `slope_between`); C87 in place of C82.
* **C41–C43, C46, C51** constructors and small functions; `solve_ph` reads an unbound local.
* **C89** the derivative of the difference between a piece and the integral of the rate has degree below `p` and `p` zeros; pieces join,
  so the constant is the same on all segments. With `p + 1` equations on the first segment a rate of degree `p` is impossible.
* **C90** `OCP.mayer` is the problem a user would write by hand. The weights integrate the slope of a piece exactly, so a state changes by
  the quadrature sum of its rates (`Mesh.SumsRates`); later segments always admit a cost state, the first one iff its `p + 1` running costs
  fit (`exists_slopes`). Continuous time: fundamental theorem of calculus.
* **C91** the closed form of C48 for one phase, a loop that writes entries into a list of `None`, and C66 for data without `None`; data
  with `None` are refused in the row where it stands (`sortStateData`).
* **C92** `Spec/Scales.lean` says what a bound demands by the sign of the scale, without multiplying bounds; the box of C11 needs no mesh
  and no positive scales.
* **C93** the closed form of C50 for one phase; `Largest` says what a largest value is without folding over a table; the plots reuse C71
  and C66. Ragged times raise `ValueError` with the pinned numpy (1.22, when the norms are reshaped) and since 1.24 (when they are stacked).
* **C94** the body of `solve_ph` behind the raise, for any solver, residuals and second derivatives (`PhEnv`). `Reaches` are the meshes at which
  an iteration starts, `Good` and `SegGood` say what being within the tolerance means at all points, without the maxima the code forms;
  `NotSmooth` likewise compares second derivatives without dividing.
* **C95** follows from C53, C55 and C60: `MidPointsOK` and `SlopesContinue` are what only one of the classes asks for.
* **C96** `OCP.inUnits` writes a problem in other units; `Traj.inUnits` a trajectory. Neither mentions the model's NLP.
* **C97** the loop of C36 and C72 with a measure that is constant; the comparison with `mpopt` is C53 and C60 at equal widths.
* **C98** one shipped problem with two phases: motions that go ahead and turn round within the second phase are found by solving two or three linear equations; C56 and C63 sample them, C53, C55 and C60 compare with what a run returns.
* **C99** `SameCut` matches nodes, times and segment lengths of a trajectory on the doubled mesh with those of two linked phases; every constraint is then translated in both directions. The node at the junction belongs to the left segment on the doubled mesh, and is the first node of a phase after the cut: this accounts for all differences.
* **C100** `SolvesEuler` states the problem without polynomials or meshes. On segments of order one every piece is a straight line, and the nodes are the ends; the rest is C53 and C52.
* **C101** `Fits` and `MotionSmooth` speak of functions of time only. A piece is a fitting polynomial plus the interpolant of what is left; Taylor's theorem of Mathlib gives the powers. It sharpens C83, which has constants for polynomials, and part (2) of C84.
* **C102** `OCP.Loosens` compares the data of two problems entry by entry; constraints are compared by what they imply, so dropping them is a special case.
* **C103** `SolverCall.IsLocal` speaks of solution vectors, `Traj.Near` of physical units; scale factors translate the distances. `OCP.Convex` speaks of the user's functions. The segment polynomials are linear in node values, so every constraint but path constraints is a bound on an affine expression.
* **C104** `Mesh.Moved` relates two meshes by an increasing affine map of `tau`; `OCP.slopesTimes` multiplies slope limits. Slopes of segment polynomials and half widths both carry the inverse factor, so collocation equations and slope continuity are unaffected; slope limits and residuals are not. `Model/LatePost.lean` is `get_interpolated_data` with the `Collocation` made at call time; `getDataIn_same` says it is the earlier model if settings are unchanged.
* **C105** `OCP.Renumbers ν` relates two problems field by field through permutations; constraint functions may be permuted as well. The relation is symmetric, so one direction of each statement suffices. The start of a phase is only imposed for phase number 0, hence the condition `ν.phase 0 = 0`; `C105_first_phase_false` shows what happens without it.
* **C106** `Certificate.Proves` speaks of the continuous problem only. The proof sums collocation equations with the quadrature weights: for LGR of order p the rule is exact for degree 2p − 2, so the price times the state polynomial is integrated exactly when the price has degree below p, and weights are nonnegative. The script of the mine example divides by the state; `scriptMine` takes the value at 0 as an argument (floating point gives nan or inf there, casadi likewise).
* **C107** `OCP.TimesOrdered` reads bounds and links only. The two counterexamples are built with `mkOCP 1 1 2 0`, i.e. the constructor's defaults, and the few assignments a script would make; the continuous problem demands t0 < tf in every phase (`PhaseHolds.order`), the NLP does not.
* **C108** `Spec/Impossible.lean` states both reasons without nodes or segments; `OCP.EndsMeet` has two nodes per phase, its start and its end. The certificate `V` is the `Certificate` of C106.
* **C109, C110** `Model/ExamplesLaunch.lean` writes out examples/Multi-phase/multistage_launch_vehicle.py with functions of real numbers. `Launch.ocp dyn tgt` is the script's object with its forces and target left open, since its mass equation alone decides the cost; `C109_script` shows that the script builds an instance.
* **C111** `Rest` (Spec/Rest) knows no mesh: one state, control and parameter per phase. The lower bound for the shipped problem comes from C106 (Certificate), existence of its solutions from C70, which now covers `mpopt_adaptive` without finite bounds and `mpopt_h_adaptive`.
* **C112** `OneSegment` lists scheme, order and exact degree; certificates, continuous solutions and rest points are those of C106, C57 and C111, none of which mentions nodes.
* **C113** `Names` says which phase a number means. `Model/Negative` repeats the functions that take phase numbers from the caller, with Python's rules for indices and slices; the theorems lead back to the functions for natural numbers.
* **C114** `Spec/Energy` has quadratic forms and their rates under the dynamics. The loss at LGR nodes comes from the polynomial that vanishes twice at the inner nodes and once at the last; `C114_balance` is an equality, so the loss is exact.
* **C56, C58, C78, C83 again** `Props/Calls` restates them for the call of the solver that `solve` makes, so that they also fail when the transcription is wrong.
* **C115** `Spec/Symmetry` has the affine maps and what it means that they preserve the problem. Slope limits are excluded because the code imposes them on scaled controls one by one.
* **C116** `Spec/Principle` writes out the one-phase problem that is left (`OCP.only`), a phase on its own (`Traj.only`) and the exchange of a phase (`Traj.put`), without reference to the NLP. For `solve` it is stated for the default widths and for any request of widths (the second run is asked for those of its phase, `widthsOnly`), for `mpopt_adaptive` for free widths. `C116_h` compares what `mpopt_h_adaptive` shows with a run of `solve` on the stored widths, not with a second search for widths: that search may store others.

## 4. Which parts are modelled

| code (`mpopt/mpopt.py`) | model | remarks |
|---|---|---|
| `mpopt.__init__`, `reset_mpopt`, `compute_numerical_approximation` 56-103 | `Model/Transcription`, `Model/Solver` | |
| `create_variables` … `create_nlp` 105-639 | `Model/Transcription` | SX graph = denoted function; scale vectors must have matching length (numpy would broadcast length one); negative phase numbers in `Model/Negative` |
| initial guess 641-708, widths 710-723 | `Model/Solver` | |
| `create_solver`, `solve`, warm start 725-855 | `Model/Solver` | up to the call of the solver object; histories as a state machine |
| `init_trajectories` 857-882 | `Model/Residual` | |
| `process_results` 884-987 | `residValue`, `mkPost` | storage of residuals and construction of the post-processor; its figures in `Model/Plot` |
| residuals 989-1575 | `Model/Residual` | running `index` written as number of earlier points; negative phases in `Model/Negative`. Plots: dynamics residuals in `Model/PostProcess`, state residuals in `Model/StatePlot`, second derivatives (also relative) and `interpolate_single_phase` in `Model/SecondPlot` |
| `post_process` 1576-1855, `sort_residual_data` 2210-2232 | `Model/PostProcess` | data functions, also those of `get_dynamics_residuals(plot=True)`; a norm is an arbitrary function of the row |
| `plot_phase` … `plot_all` 1857-2208, `plot_residuals` 2232-2270 | `Model/Plot` | curves, labels and legends as data; colours, layout and matplotlib itself left out; `fig` and `axs` are given together or not at all; components are non-negative |
| `mpopt_h_adaptive` 2273-2875: widths and loop | `Model/Widths`, `Model/HAdaptive` | solver, residuals and slopes are oracles that may differ from call to call; printing and timing left out |
| `mpopt_h_adaptive`: objects, `solve`, `process_results` | `Model/HSession` | the loop with the object's own residuals and slopes; the collocation object is rebuilt from the mesh attributes, so these must not change without `reinitialize_nlp`; an empty `tol_residual` raises for every method |
| `mpopt_h_adaptive`: `plot_residual_evolution` 2328-2329, 2540-2559, 2719-2741 | `Model/HWatch` | as `Model/Plot`; entries of `phases_to_plot` are tuples of phase numbers |
| `mpopt_adaptive` 2877-3276 | `Model/Adaptive` | |
| `mpopt_adaptive`: `create_solver`, `solve`, `process_results` 3176-3376 | `Model/AdaptSession` | the collocation object is rebuilt from the mesh attributes, so these must not change without `reinitialize_nlp`; `process_results` gets the solution returned last |
| `OCP` 3378-3703 | `Model/OCP` | plot settings left out; callables have a fixed number of outputs (they are called once, with symbols) |
| `Collocation` 3706-4131 | `Model/Poly`, `Model/Collocation`, `Model/Cache` | IDAS integration is exact; `D_MATRIX_METHOD` does not change during the life of an object |
| `CollocationRoots` 4134-4276 | `Model/Roots` | SciPy/numpy routines are arguments with contracts |
| `solve` 4279-4313 | `Model/Helpers` | see there |
| `mpopt_ph_adaptive` 4316-4596 | `Model/PhAdaptive`, `Model/PhSolve` | constructor, `get_abs_max_residual`, `limit_poly_orders`, the raise at the start of `solve_ph`, and its whole (unreachable) body without printing; `self.n_segments` and `self.poly_orders` are arguments of the loop, and `solve_dict` is not changed apart from the entry `nlp_sw_params`, which `solve` ignores |
| `examples/singlephase/`: `ocp_with_solution.py` 32-50, `moon_lander.py` 30-61, `hyper_sensitive.py` 31-39; `examples/Multi-phase/tpschwartz.py` 30-65 | `Model/Examples` | problem data only; decimals are exact rationals |
| `examples/Multi-phase/multistage_launch_vehicle.py` 36-295 | `Model/ExamplesLaunch` | problem data only, over the reals; decimals are exact; solver calls and plots left out |
| `tests/test_mpopt.py` 206-227, 302-323 | `Model/ExamplesVdpTest`, `exampleFixtures` | decimals are exact |
| `examples/singlephase/dae_vdp.py` 29-63, 82-89 | `Model/ExamplesVdp`, `hoptVdp`, `callsVdp` | decimals are exact; plots left out |

Not modelled: floating point; printing, timing and rendering (matplotlib); what the NLP solver does; CasADi's
internal graph; memory and performance. Object identity is modelled only where it matters (deep copy at
construction, shared default dictionaries, shared caches).

## 5. Trusted base

* Lean 4.33 kernel and Mathlib.
* Axioms: `propext`, `Classical.choice`, `Quot.sound`, nothing else (section 7).
* Faithfulness of the hand-written model to the cited lines of `/repo`.
* The contracts for external code listed in section 1. They are hypotheses of the theorems that need them, not axioms.

## 6. Disagreements between code and documented (or expected) behaviour

Proved about the model:

| finding | theorem |
|---|---|
| scheme LG and unknown schemes return `d` nodes, composite matrices raise | `C01_lg_false`, `C01_lg_composite_false`, `C01_unknown_scheme_false`, `C01_unknown_scheme_composite_false` |
| composite quadrature drops the first weight of every later segment | `C07_lgl_false`, `C07_cgl_false`, `C07_lgr_order1_false`; always too small: `C74_constant`, `C74_minimum_time`; refinement does not help: `C78_share_lost`, `C78_example` |
| with `poly_orders=1` about half of every running cost is left out, whatever the scheme: problems with terminal and running cost get wrong minimisers on every mesh | `C100_weights`, `C100_solve`, `C100_push` |
| the dynamics are imposed at the first node of a phase too: uncontrolled modes off equilibrium make the NLP infeasible on every mesh | `C76_first_segment`, `C76_example` |
| cutting a phase into two linked phases adds the collocation equation at the junction from the right, which can make a solvable problem infeasible | `C99_cut`, `C99_lost` |
| for the same reason a state with rate `t ^ p` makes the NLP infeasible when the first segment has order `p` | `C89_too_steep`, `C89_example` |
| rewriting running costs as a state can make a solvable NLP infeasible | `C90_mayer_false` |
| slope limits and residual tolerances are per unit of `tau`, so changing `_TAU_MIN`, `_TAU_MAX` changes what they mean | `C104_unconverted`, `C104_slopes_matter`, `C104_defect` |
| `get_data(interpolate=True)` is wrong if `_TAU_MIN`, `_TAU_MAX` were changed after solving | `C104_late`, `C104_late_start`, `C104_late_example` |
| the start is imposed on the phase listed first, even if the links put another one before it; the same phases in another order have other solutions | `C105_first_phase_false` |
| with two or more controls the default starting point depends on the order of the controls | `C105_guess_false` |
| with several LGL or CGL segments every feasible trajectory may be cheaper than a proved lower bound on the cost | `C106_not_lobatto` |
| with default time bounds the second of two phases may run backward in time: a race that takes time 1 is won at time 0 by all three classes | `C107_solve`, `C107_adaptive`, `C107_h` |
| with the time spent in the second phase as cost the NLP is unbounded below | `C107_stay_cost`, `C107_never` |
| the problem solved in tests/test_mpopt.py (`test_ocp`) has no feasible point; the tests pass because nothing looks at the solver's status | `C108_test`, `C108_test_solve` |
| the shipped launcher admits burnout until 1024 s, but its bound on the mass ends the problem at 961 s; its mass bounds of the first three phases are met with equality | `C109_launch` |
| the terminal constraints of the shipped launcher accept four orbits: the quadrant checks are commented out | `C110_four`, `C110_accepted` |
| the bound -0.25 on the second state of dae_vdp.py excludes nothing, and its parameter is not determined by the problem | `C111_vdp_idle`, `C111_vdp_parameter` |
| tests/test_mpopt.py 566, 578 and 590 define one name three times, so only the CGL test runs; LGL and CGL keep their guarantees on the single segment used there, but not on several | `C112_solve_beats`, `C112_certificate`, `C106_not_lobatto` |
| the last phase cannot be addressed as -1 in the residual functions, although -2 works and `get_data` takes -1 | `C113_last_raises`, `C113_last_fixed`, `exampleNegativePhase` |
| with LGR nodes of order 2, a motion that keeps a positive definite quantity cannot be represented by any number of segments, though LGL of the same order can | `C114_stuck`, `exampleTurn`, `C114_turn_lobatto` |
| for a problem with a symmetry, which of several best trajectories `solve` shows is up to the solver | `C115_solve`, `exampleFork` |
| links keep the control continuous, so a best plan can be improved by planning again at the start of a phase | `C116_solve`, `C116_adaptive`, `exampleHold`, `exampleHoldAdaptive` |
| `get_states_residuals(plot=True)` raises when a phase is left out or a segment has no points | `C91_plot_missing`, `C91_plot_empty`, `C91_plot_refused` |
| relative state residuals need not lie in [-1, 1] | `C91_relative_large` |
| `validate` accepts scales that are negative or zero; the NLP is then infeasible or its variables are stuck at 0 | `C92_negative_infeasible`, `C92_adaptive_infeasible`, `C92_zero_scale`, `C92_example` |
| relative second derivatives divide by the largest signed value: they can be far below -1, or all at least 1 when it is negative; straight lines divide by zero | `C93_relative_range`, `C93_relative_zero`, `C93_relative_values` |
| `get_state_second_derivative(plot=True)` raises when a segment has no points | `C93_plot_refused`, `C93_plot_values` |
| bounds on control slopes are not scaled | `C17_scaling_diff_u_false` |
| `du_continuity` compares slopes in τ, not in time; `mpopt_adaptive` ignores it | `C19_real_time_false`, `C19_adaptive_ignores_flags` |
| control part of the initial guess is in row-major order | `C20_controls_false` |
| the h-adaptive class adds `ipopt.print_level` for every solver | `C22_h_other_solver_false` |
| after a failed reinitialisation old solver and new bounds are combined | `C23_after_failure_false` |
| scripts `falcon9_booster_landing*.py` change the dynamics of their own problem object and reinitialise: the optimiser still has the old dynamics | `C75_unassigned_edits` |
| `mpopt_h_adaptive` returns the initial solution although the edited problem is not solved by it | `C75_h_stale_false` |
| parameters are returned as a table of quotients for `na ≥ 2` | `C24_parameters_false`, `C25_parameters_false` |
| widths summing to 1 only up to the tolerance lose the end node | `C27_within_tolerance_loses_end` |
| 'fixed' residual grid contains the end node and misses an interior one | `C28_fixed_contains_end`, `C44_gap_false` |
| residual at a shared node seen from the right segment is not zero | `C29_shared_node_from_right_false` |
| phase 0's grid type is used for all phases | `C30_false`, `C30_requests_differ` |
| the spectral residual grid can consist of collocation nodes and then reports zero for every feasible point | `C65_spectral_false`, `C65_blind_example` |
| `sort_residual_data` takes phase 0 for the first requested phase, whatever it is | `C66_single`, `C66_first_phase_false` |
| `get_dynamics_residuals(plot=True)` raises ValueError for two or more phases of two or more equal segments on the default grid | `C66_default_raises` |
| `plot_residual_evolution`: only phase 0 is drawn; two or more entries in `phases_to_plot` raise TypeError; with an initial solution two drawings are called "Iter 0" | `C85_figure`, `C85_groups` |
| `plot_residual_evolution` with control slopes raises IndexError after 75 solver calls | `C85_markers` |
| `process_results` of `mpopt_adaptive` asserts that widths sum to 1 up to 1e-6, whatever the tolerance of the solver | `C86_residuals_need_sum`, `C86_coarse_false` |
| a figure shows the residuals of all phases, whatever phases it was asked for | `C71_figures` |
| `plot_phases` raises IndexError for more than 15 states or controls | `C71_too_many` |
| with both residuals `plot_phases` raises ValueError when a segment has no check point; for the default call: iff `max(Σ orders + 1, 16) < 2 n_segments` | `C71_both_residuals`, `C71_solve_plot` |
| residuals of phases with even and uneven numbers of check points cannot be drawn | `C71_dynamics_residuals`, `C71_mixed_false` |
| `plot_x`, `plot_u` number components from 0, `plot_phases` from 1: the same label names different states | `C71_labels_shift` |
| `plot_x(dims=[[0, 1]])` gives both states the label `state [0, 1]` | `C71_plot_x_group` |
| `plot_u` raises IndexError without controls; without interpolation it ignores `name` and `tics` | `C71_plot_u_none`, `C71_plot_u` |
| `plot_phase` returns nothing instead of the figure | `C71_plot_phase` |
| equal-area widths need not sum to 1; zero area gives `nan` | `C32_sum_one_false`, `C32_zero_area_nan` |
| control-slope refinement uses the shallowest instants | `C34_steepest_false` |
| normalised widths can fall below `lbh` | `C35_below_lbh` |
| h-adaptive `solve(max_iter=0)` raises `UnboundLocalError` | `C36_no_iterations` |
| with one segment the h-adaptive class never iterates: its error is `None`, and equal widths do not change | `C72_single` |
| an `initial_solution` with small residuals is returned unchecked by the h-adaptive class | `C59_given_false` |
| `OCP(n_phases=0)` raises `IndexError` | `C39_no_phases_raises` |
| `solve_ph` raises `UnboundLocalError` on every input; its mesh update would lose phases | `C41_solve_ph_false`, `C41_two_phases_lost` |
| behind that raise, `solve_ph` would solve refined meshes with equal widths, exceed the limit on segments, stop as soon as one phase is good, and refine by the last phase only | `C94_widths`, `C94_example_widths`, `C94_one_good_phase`, `C94_example_phase`, `C94_last_phase` |
| a start outside the state bounds passes `mpopt` (its bounds are overwritten) and makes `mpopt_adaptive` infeasible; residuals half-way between nodes can do the same | `C95_above`, `C95_hump` |
| a misspelt method (as in `examples/Multi-phase/tpschwartz.py` 107) refines nothing and raises nothing; widths found by earlier calls are thrown away | `C97_unknown_method`, `C97_same_as_plain` |
| refined grid can exceed the documented maximum | `C42_not_a_maximum_false` |
| relative residuals can fail the internal assertion | `C45_false` |
| `_optimization_vars_per_phase` counts parameters of all phases | `C46_vars_per_phase_iff` |
| custom nodes stored under an integer key disturb later requests | `C47_integer_key_false` |
| `residual_x=True, residual_dx=False` stores nothing | `C49_false` |
| second derivative is in τ, not in time | `C50_second_derivative` |

Seen while reading, visible in the definitions of the model: residual tolerance of `mpopt_adaptive` applies to scaled
states and is weighted with the segment width; `min_segments`/`max_segments` are never used; `lbe` rows are indexed
by link number; no phase links with several phases raises `ValueError`; `nx = 0` raises `ValueError`; unknown
`grid_type` falls back silently; `validate` does not look at `lbdu`, `ubdu`; `get_interpolated_data` stacks parameters
horizontally and `get_original_data` vertically; the `n_req == 2` branch of
`compute_segment_widths_at_times` is a special case of the general one.

## 7. Axioms

`#print axioms` of every theorem named in `MANIFEST.json`: at most `propext`, `Classical.choice`, `Quot.sound`. No
`sorryAx`, no `Lean.ofReduceBool`. To repeat it:

```
cd lean && lake build && python3 - <<'PY' > /tmp/Ax.lean
import json
print("import Verif")
for c in json.load(open("../MANIFEST.json"))["claims"]:
    for t in c["theorems"]: print("#print axioms", t)
PY
lake env lean /tmp/Ax.lean
```

## 8. Wrong programs

`seeded/LOG.jsonl` records edits of the model like realistic bugs, and which theorems stop proving. A theorem counts as
failed when its own proof breaks or when it rests on a lemma whose proof breaks.
