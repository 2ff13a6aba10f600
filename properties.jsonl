{"id": "C01", "title": "Collocation nodes span the segment", "statement": "For schemes LGR, LGL and CGL and every degree d >= 1, the node function returns exactly d+1 strictly increasing nodes whose first is the lower end and whose last is the upper end of the tau interval. (Documented for LG and for unknown schemes too; there it is false: d nodes are returned, without the upper end for LG, and building the composite matrices fails.)", "quantifier": "all schemes, all degrees, all tau intervals [tau_min, tau_max]", "why_tests_cant": "tests only look at degree 1 and one degree 3 instance; the degree is unbounded", "anchors": ["mpopt/mpopt.py:CollocationRoots.get_collocation_points", "mpopt/mpopt.py:CollocationRoots.roots_legendre_gauss_radau", "mpopt/mpopt.py:CollocationRoots.roots_legendre_gauss_lobatto", "mpopt/mpopt.py:CollocationRoots.roots_chebyshev_gauss_lobatto", "mpopt/mpopt.py:CollocationRoots.roots_legendre_gauss"]}
{"id": "C02", "title": "Basis polynomials are cardinal", "statement": "For any distinct nodes, basis polynomial j takes value 1 at node j and 0 at every other node, and the basis polynomials sum to 1 everywhere.", "quantifier": "all lists of distinct nodes of any length, all evaluation points", "why_tests_cant": "infinitely many node sets and evaluation points", "anchors": ["mpopt/mpopt.py:Collocation.get_lagrange_polynomials"]}
{"id": "C03", "title": "Interpolation matrix is exact on polynomials", "statement": "Multiplying the interpolation matrix for nodes of a degree-d segment by the samples of any polynomial of degree <= d gives the values of that polynomial at the requested taus; at a requested tau equal to a node it returns the sample itself, whatever the samples are.", "quantifier": "all degrees, node sets, requested taus and polynomials", "why_tests_cant": "real-valued function space; tests sample a handful of solutions", "anchors": ["mpopt/mpopt.py:Collocation.get_interpolation_matrix"]}
{"id": "C04", "title": "Differentiation matrices are exact on polynomials", "statement": "First- and second-order differentiation matrices (at the nodes or at arbitrary taus) applied to samples of any polynomial of degree <= d return its first / second derivative; every row sums to 0; the second order matrix at the nodes is the square of the first; any other order raises.", "quantifier": "all degrees, node sets, taus, polynomials, orders", "why_tests_cant": "tests check degree 1 only", "anchors": ["mpopt/mpopt.py:Collocation.get_diff_matrix", "mpopt/mpopt.py:Collocation.get_interpolation_Dmatrices_at"]}
{"id": "C05", "title": "Quadrature weights are exact", "statement": "Quadrature weights integrate every polynomial of degree <= d exactly over any requested interval and sum to its length; for LGR nodes over the whole segment exactness extends to degree 2d-2, for LGL nodes to degree 2d-1, and the LGR weight of the left end is 0 for d >= 2.", "quantifier": "all degrees, node sets, integration limits, polynomials", "why_tests_cant": "unbounded degree and polynomial space", "anchors": ["mpopt/mpopt.py:Collocation.get_quadrature_weights", "mpopt/mpopt.py:Collocation.get_quad_weight_matrices"]}
{"id": "C06", "title": "Composite differentiation matrix differentiates piecewise polynomials", "statement": "For every list of segment orders, the composite matrix applied to the samples of a continuous piecewise polynomial (one node shared by neighbours) returns, at each node, the derivative of the piece that owns the node: the left piece at a shared node, the first piece at node 0.", "quantifier": "all segment counts, all order lists, all continuous piecewise polynomials", "why_tests_cant": "block index arithmetic over unbounded segment lists", "anchors": ["mpopt/mpopt.py:Collocation.get_composite_differentiation_matrix"]}
{"id": "C07", "title": "Running cost is integrated over the whole phase", "statement": "The composite quadrature of the running cost equals the sum over segments of (half width) x (integral of the piece) whenever the running cost is a piecewise polynomial of the segment orders. True for one segment, and for LGR with orders >= 2; false for LGL, CGL and LGR order 1 with two or more segments, where the first weight of every later segment is dropped.", "quantifier": "all order lists, schemes, segment widths, piecewise polynomial costs", "why_tests_cant": "tests compare final cost to no reference for several segments", "anchors": ["mpopt/mpopt.py:Collocation.get_composite_quadrature_weights", "mpopt/mpopt.py:mpopt.discretize_phase"]}
{"id": "C08", "title": "Composite interpolation matrices evaluate the right piece", "statement": "For every list of per-segment taus (possibly empty for some segments) row k of the composite interpolation (resp. derivative) matrix applied to the stacked samples gives the value (resp. derivative) of the polynomial of the segment that tau k belongs to at that tau, in segment order.", "quantifier": "all order lists, all ragged tau lists, all sample vectors", "why_tests_cant": "ragged index arithmetic over unbounded lists", "anchors": ["mpopt/mpopt.py:Collocation.get_composite_interpolation_matrix", "mpopt/mpopt.py:Collocation.get_composite_interpolation_Dmatrix_at"]}
{"id": "C09", "title": "Symbolic and numerical matrix methods agree", "statement": "With exact arithmetic the symbolic (expression graph, gradient) and the numerical (poly1d, polyder, polyint) settings give the same interpolation, first and second derivative matrices and quadrature weights.", "quantifier": "all node lists, evaluation points and both settings", "why_tests_cant": "the one test compares degree 3 LGR only", "anchors": ["mpopt/mpopt.py:Collocation.D_MATRIX_METHOD", "mpopt/mpopt.py:Collocation.get_lagrange_polynomials", "mpopt/mpopt.py:Collocation.get_diff_matrix", "mpopt/mpopt.py:Collocation.get_quadrature_weights"]}
{"id": "C10", "title": "Every decision variable appears exactly once in the NLP vector", "statement": "The NLP vector x contains each state, control, initial time, final time and parameter of each phase (and each segment width in mpopt_adaptive) exactly once, has no other entry, and has length n_phases*(N*(nx+nu)+2+na) (+ n_segments per phase).", "quantifier": "all nx, nu, na, n_phases, order lists", "why_tests_cant": "index layouts for arbitrary sizes", "anchors": ["mpopt/mpopt.py:mpopt.get_nlp_variables", "mpopt/mpopt.py:mpopt.create_nlp", "mpopt/mpopt.py:mpopt_adaptive.get_nlp_variables"]}
{"id": "C11", "title": "Variable bounds line up with variables", "statement": "lbx/ubx have the length of x and at the position of each variable hold the OCP bound of that component times its scale; the first node of phase 0 is pinned to x00[0].", "quantifier": "all sizes, bounds (including infinities), scales", "why_tests_cant": "column-major / row-major slips show only for particular sizes", "anchors": ["mpopt/mpopt.py:mpopt.get_nlp_variables", "mpopt/mpopt.py:mpopt_adaptive.get_nlp_variables"]}
{"id": "C12", "title": "Constraint vector and its bounds have equal length", "statement": "For every OCP accepted by validate and every combination of optional constraints, g, lbg and ubg have the same length, in mpopt and in mpopt_adaptive.", "quantifier": "all sizes, phases, option flags, order lists", "why_tests_cant": "exponentially many flag combinations times unbounded sizes", "anchors": ["mpopt/mpopt.py:mpopt.discretize_phase", "mpopt/mpopt.py:mpopt.create_nlp", "mpopt/mpopt.py:mpopt_adaptive.discretize_phase", "mpopt/mpopt.py:mpopt_adaptive.get_nlp_constrains_for_segment_widths"]}
{"id": "C13", "title": "Time grid covers the phase", "statement": "If every order is >= 1, the transcription time grid never indexes outside the mesh, starts at t0, reaches t0+(tf-t0)*(sum of widths up to s) at the end of segment s (so ends at tf when widths sum to 1), is affine in tau inside each segment and strictly increasing when tf>t0 and widths are positive.", "quantifier": "all order lists, widths, t0, tf", "why_tests_cant": "loop with carried segment counter over unbounded meshes", "anchors": ["mpopt/mpopt.py:mpopt.get_discretized_dynamics_constraints_and_cost_matrices"]}
{"id": "C14", "title": "Dynamics constraints are the collocation equations in physical units", "statement": "A point satisfies the dynamics rows of the NLP iff at every node of every phase the derivative of the node-owning piece of the (unscaled) state polynomial with respect to time scaled by the segment half-width equals half-width times the user dynamics evaluated at the unscaled state, control, time and parameters.", "quantifier": "all OCPs with nonzero scales, all meshes, all points", "why_tests_cant": "function-space and size quantifiers", "anchors": ["mpopt/mpopt.py:mpopt.get_nlp_constraints_for_dynamics", "mpopt/mpopt.py:mpopt.get_discretized_dynamics_constraints_and_cost_matrices"]}
{"id": "C15", "title": "Path constraints, terminal constraints and cost are evaluated at the right arguments", "statement": "Feasibility of the path rows is: every path constraint component <= 0 at every node; of the terminal rows: every component = 0 at (x(tf),tf,x(t0),t0,a); the objective is the sum over phases of terminal cost plus composite quadrature of half-width times running cost, all in unscaled quantities.", "quantifier": "all OCPs, meshes and points", "why_tests_cant": "argument-order and scaling slips are invisible for unit scales", "anchors": ["mpopt/mpopt.py:mpopt.get_nlp_constraints_for_path_contraints", "mpopt/mpopt.py:mpopt.get_nlp_constraints_for_terminal_contraints", "mpopt/mpopt.py:mpopt.discretize_phase", "mpopt/mpopt.py:mpopt.create_nlp"]}
{"id": "C16", "title": "Phase linking", "statement": "A point satisfies the event rows iff for the k-th phase link (i,j): the jump from the last state of phase i to the first state of phase j lies componentwise in [lbe[k],ube[k]] in physical units, the control jump is 0 and the time jump is 0.", "quantifier": "all phase counts, all link lists, all scales > 0", "why_tests_cant": "multi-phase index pairing for arbitrary links", "anchors": ["mpopt/mpopt.py:mpopt.get_event_constraints"]}
{"id": "C17", "title": "Scaling does not change the problem", "statement": "For positive scale factors the set of physical trajectories that are feasible for the NLP and their objective values do not depend on the scale factors. True when diff_u is off; false with diff_u on (its bounds are not scaled).", "quantifier": "all OCPs, all pairs of positive scalings", "why_tests_cant": "relates two different NLPs over all points", "anchors": ["mpopt/mpopt.py:mpopt.create_nlp", "mpopt/mpopt.py:OCP.scale_x", "mpopt/mpopt.py:OCP.scale_u", "mpopt/mpopt.py:OCP.scale_t", "mpopt/mpopt.py:OCP.scale_a"]}
{"id": "C18", "title": "Mid-point control bounds", "statement": "With midu on and at least one finite control bound, feasibility implies and is implied by: at the midpoint of each pair of consecutive nodes the control polynomial of that segment lies in the control bounds, componentwise.", "quantifier": "all meshes, controls, bounds", "why_tests_cant": "alignment of bounds with column-major midpoint values for arbitrary nu", "anchors": ["mpopt/mpopt.py:mpopt.get_nlp_constrains_for_control_input_at_mid_colloc_points"]}
{"id": "C19", "title": "Control slope continuity", "statement": "With du_continuity on, feasibility is equivalent to: at every interior segment boundary the tau-slope of the left control polynomial at its end equals that of the right one at its start. (In real time, slopes agree iff the two segment widths are equal; with unequal widths real-time continuity is false.) mpopt_adaptive silently ignores the flag.", "quantifier": "all segment counts >= 2, orders, nu", "why_tests_cant": "slice arithmetic [1:-1][::2] for all segment counts", "anchors": ["mpopt/mpopt.py:mpopt.get_nlp_constrains_for_control_slope_continuity_across_segments", "mpopt/mpopt.py:mpopt_adaptive.discretize_phase"]}
{"id": "C20", "title": "Initial guess is the linear interpolation, variable by variable", "statement": "The default initial guess has the length of x and gives every state/control at node k its value on the straight line from the start guess to the final guess at uniform fraction k/(N-1). True for states; for controls true when nu<=1, false in general for nu>=2 (the control block is written in row-major order).", "quantifier": "all sizes, guesses", "why_tests_cant": "needs nu>=2 and non-constant guess", "anchors": ["mpopt/mpopt.py:mpopt.init_solution_per_phase", "mpopt/mpopt.py:mpopt.initialize_solution", "mpopt/mpopt.py:mpopt_adaptive.init_solution_per_phase"]}
{"id": "C21", "title": "Warm start key mapping", "statement": "For any solution dictionary the solver receives x0 always, only keys among x0, lam_x0, lam_g0; each carries the value of the last supplied alias; unknown keys are dropped; without x or x0 the default guess is used.", "quantifier": "all dictionaries (any keys, any order)", "why_tests_cant": "all insertion orders and key subsets", "anchors": ["mpopt/mpopt.py:mpopt.get_solver_warm_start_input_parameters"]}
{"id": "C22", "title": "Solver options: user wins, defaults do not leak", "statement": "For every options dictionary each user key overrides the default, every other ipopt default is kept, non-ipopt solvers get exactly the user options, and the options used by one call do not depend on the options of earlier calls.", "quantifier": "all option dictionaries, all call histories", "why_tests_cant": "history-dependent (mutable default arguments)", "anchors": ["mpopt/mpopt.py:mpopt.create_solver", "mpopt/mpopt.py:mpopt_adaptive.create_solver", "mpopt/mpopt.py:mpopt_h_adaptive.solve"]}
{"id": "C23", "title": "Solver life cycle", "statement": "Over any history of solve / reset / problem edits, the NLP handed to the solver is the one built at the most recent of: first solve, solve with reinitialize_nlp, first solve after a reset; edits of the user's OCP object after construction are never seen.", "quantifier": "all call histories", "why_tests_cant": "state machine over unbounded histories", "anchors": ["mpopt/mpopt.py:mpopt.solve", "mpopt/mpopt.py:mpopt.create_solver", "mpopt/mpopt.py:mpopt.reset_mpopt", "mpopt/mpopt.py:mpopt.__init__"]}
{"id": "C24", "title": "Returned trajectory honours the initial condition and bounds", "statement": "For every NLP point within lbx/ubx, get_data() of phase 0 starts at x00[0] and every other returned state, control and parameter lies within the OCP's bounds (positive scales). False for the off-diagonal entries of the parameter table when there are two or more parameters.", "quantifier": "all OCPs, meshes, points", "why_tests_cant": "end-to-end over all sizes", "anchors": ["mpopt/mpopt.py:mpopt.init_trajectories", "mpopt/mpopt.py:post_process.get_trajectories", "mpopt/mpopt.py:mpopt.get_nlp_variables"]}
{"id": "C25", "title": "Post-processing inverts packing", "statement": "For every assignment of physical trajectories, packing them as NLP vector and calling get_data returns exactly those trajectories (unscaled, or scaled with scaling=True), phase by phase in the requested order. True for states, controls and times; for parameters only with scaling=True or one parameter, otherwise a table of quotients is returned.", "quantifier": "all sizes, phases lists, scales != 0", "why_tests_cant": "round trip for arbitrary layouts", "anchors": ["mpopt/mpopt.py:post_process.get_trajectories", "mpopt/mpopt.py:post_process.get_original_data", "mpopt/mpopt.py:mpopt.init_trajectories"]}
{"id": "C26", "title": "Interpolated data", "statement": "get_data(interpolate=True) returns for each phase 49*n_segments+1 points, starting at the first node and ending at the last node with the node values, times strictly increasing (for an increasing time grid), and each value equals the segment polynomial at the corresponding time.", "quantifier": "all meshes and solutions", "why_tests_cant": "unbounded meshes", "anchors": ["mpopt/mpopt.py:post_process.get_interpolated_data", "mpopt/mpopt.py:post_process.get_interpolated_time_grid", "mpopt/mpopt.py:post_process.get_interpolation_taus"]}
{"id": "C27", "title": "Residual grid mapping is a partition", "statement": "For positive widths summing to 1 and any nodes in the phase, every node except those at the phase start is mapped to exactly one segment, to a tau in (tau0,tau1], order is kept, and mapping the tau back through the segment gives the original node; widths not summing to 1 within 1e-6 raise. With widths summing to 1 only within that tolerance, the same holds for all nodes up to the end of the last segment, which may exclude the end of the phase.", "quantifier": "all width vectors, all node lists, all tau intervals", "why_tests_cant": "boundary ties at every cumulative width", "anchors": ["mpopt/mpopt.py:mpopt.compute_interpolation_taus_corresponding_to_original_grid", "mpopt/mpopt.py:mpopt.get_interpolated_time_grid"]}
{"id": "C28", "title": "Residual grid excludes phase end nodes", "statement": "As documented, the residual grid never contains the start or end node of the phase. True for 'mid-points' and 'spectral' and for 'fixed' with one segment; false for 'fixed' with two or more segments (an interior node is dropped instead of the end node).", "quantifier": "all meshes and grid types", "why_tests_cant": "needs several segments", "anchors": ["mpopt/mpopt.py:mpopt.get_residual_grid_taus"]}
{"id": "C29", "title": "Feasible points have zero dynamics residual at collocation nodes", "statement": "For any point satisfying the dynamics constraints, get_dynamics_residuals evaluated at the collocation nodes returns 0 in every component. False at a node shared by two segments seen from the right one, where nothing is collocated.", "quantifier": "all OCPs, meshes, feasible points", "why_tests_cant": "ties two independent index computations", "anchors": ["mpopt/mpopt.py:mpopt.get_dynamics_residuals_single_phase", "mpopt/mpopt.py:mpopt.interpolate_single_phase"]}
{"id": "C30", "title": "Residuals use each phase's own grid type", "statement": "get_dynamics_residuals(grid_type=None) evaluates phase k on the grid type configured for phase k. True when all phases share one grid type; false otherwise (phase 0's type is reused).", "quantifier": "all phase counts and per-phase settings", "why_tests_cant": "needs different settings per phase", "anchors": ["mpopt/mpopt.py:mpopt.get_dynamics_residuals", "mpopt/mpopt.py:mpopt.get_states_residuals"]}
{"id": "C31", "title": "merge_split keeps the mesh valid", "statement": "For every residual vector and positive width vector the refined widths have the same number of entries, the same total, are positive, keep every breakpoint between a good and a bad run of segments, every maximal run meeting the tolerance becomes one segment and every failing run is split evenly.", "quantifier": "all residual/width vectors, tolerances", "why_tests_cant": "combinatorial grouping over unbounded lists", "anchors": ["mpopt/mpopt.py:mpopt_h_adaptive.merge_split_segments_based_on_residuals"]}
{"id": "C32", "title": "equal_area widths", "statement": "For nonnegative residual samples with positive total area the refined widths are positive and (with linear interpolation of cumulative area) each holds 1/n of the area; they sum to 1 iff the last sampled interval has positive area. The unconditional claim 'sum is 1' is false.", "quantifier": "all sample vectors, all segment counts", "why_tests_cant": "trailing zero residuals are rare in tests", "anchors": ["mpopt/mpopt.py:mpopt_h_adaptive.get_roots_wrt_equal_area", "mpopt/mpopt.py:mpopt_h_adaptive.compute_seg_width_based_on_residuals"]}
{"id": "C33", "title": "Widths from switching times sum to 1", "statement": "For any nonempty set of distinct interior times and n_segments >= 2 the returned widths are n_segments positive fractions summing to 1 (the code's TODO), each chosen time within the budget is a breakpoint.", "quantifier": "all time vectors, segment counts, t0<tf", "why_tests_cant": "three-way case split with integer truncation", "anchors": ["mpopt/mpopt.py:mpopt_h_adaptive.compute_segment_widths_at_times"]}
{"id": "C34", "title": "Control-slope refinement picks the steepest instants", "statement": "The instants handed to the width computation are interior nodes with slope >= threshold, and those used are the steepest. The first half is true; the second is false: slopes are sorted ascending, the shallowest are used.", "quantifier": "all slope vectors and thresholds", "why_tests_cant": "needs more candidates than segments", "anchors": ["mpopt/mpopt.py:mpopt_h_adaptive.compute_time_at_max_values", "mpopt/mpopt.py:mpopt_h_adaptive.compute_segment_widths_at_times"]}
{"id": "C35", "title": "Clamped and normalised widths", "statement": "After clamping to [lbh,ubh] and normalising, widths of a control-slope refinement sum to 1 and are positive; each is at least lbh/(1+n*lbh). (They may fall below lbh itself.)", "quantifier": "all widths, bounds 0<lbh<=ubh", "why_tests_cant": "all real width vectors", "anchors": ["mpopt/mpopt.py:mpopt_h_adaptive.compute_seg_width_based_on_input_slope"]}
{"id": "C36", "title": "h-adaptive loop returns a consistent pair and terminates", "statement": "For any solver and residual behaviour, solve(max_iter>=1) makes at most max_iter solver calls and on return the stored segment widths are exactly those the returned solution was computed with (or evaluated with, if the initial solution is accepted); with max_iter=0 and no acceptable initial solution it raises.", "quantifier": "all solver behaviours, histories, max_iter", "why_tests_cant": "all iteration histories including early stops", "anchors": ["mpopt/mpopt.py:mpopt_h_adaptive.solve"]}
{"id": "C37", "title": "Every mesh the h-adaptive solver sees is valid", "statement": "Throughout any run with positive lbh, each width vector passed to the solver has n_segments*n_phases positive entries summing to 1 in each phase (for method 'equal_area': provided the residual samples end with positive area).", "quantifier": "all runs, methods, residual histories", "why_tests_cant": "invariant over unbounded iteration", "anchors": ["mpopt/mpopt.py:mpopt_h_adaptive.solve", "mpopt/mpopt.py:mpopt_h_adaptive.get_segment_width_parameters", "mpopt/mpopt.py:mpopt_h_adaptive.compute_seg_width_based_on_residuals", "mpopt/mpopt.py:mpopt_h_adaptive.compute_seg_width_based_on_input_slope"]}
{"id": "C38", "title": "mpopt_adaptive: width variables form a mesh and midpoint constraints use the right time", "statement": "A point feasible for mpopt_adaptive has widths summing to 1 in each phase and each within [lbh,ubh]; the time used at a midpoint is the time of that tau; midpoint states and controls are within bounds; with mid_residuals each width-weighted midpoint residual component is within tolerance.", "quantifier": "all OCPs, meshes, feasible points", "why_tests_cant": "size and index quantifiers", "anchors": ["mpopt/mpopt.py:mpopt_adaptive.get_nlp_constrains_for_segment_widths", "mpopt/mpopt.py:mpopt_adaptive.discretize_phase"]}
{"id": "C39", "title": "Default OCP is valid", "statement": "OCP(nx,nu,n_phases,na) passes its own validate() for every n_phases >= 1; for n_phases = 0 the constructor itself raises IndexError.", "quantifier": "all sizes", "why_tests_cant": "all sizes", "anchors": ["mpopt/mpopt.py:OCP.__init__", "mpopt/mpopt.py:OCP.validate"]}
{"id": "C40", "title": "validate() guarantees ordered NLP bounds", "statement": "If validate() accepts an OCP with positive scales then lbx <= ubx for the whole NLP vector and, if also lbdu<=ubdu in phases with diff_u, lbg <= ubg (validate does not check lbdu/ubdu).", "quantifier": "all OCPs", "why_tests_cant": "all bound matrices", "anchors": ["mpopt/mpopt.py:OCP.validate", "mpopt/mpopt.py:mpopt.get_nlp_variables", "mpopt/mpopt.py:mpopt.discretize_phase"]}
{"id": "C41", "title": "ph-adaptive limits and solve_ph", "statement": "After construction every polynomial order lies within [poly_order_min, poly_order_max], n_segments within [seg_min, seg_max], and saturation keeps orders in range. Calling solve_ph returns a solution: false, it raises UnboundLocalError on every input.", "quantifier": "all constructor arguments", "why_tests_cant": "all parameter combinations", "anchors": ["mpopt/mpopt.py:mpopt_ph_adaptive.__init__", "mpopt/mpopt.py:mpopt_ph_adaptive.solve_ph"]}
{"id": "C42", "title": "Grid refinement by midpoints", "statement": "get_non_uniform_interpolation_grid terminates, keeps end points and every original node, keeps strict order, refines by whole doublings, and returns at least n points unless six doublings do not reach n.", "quantifier": "all grids, all n", "why_tests_cant": "loop with two exit conditions", "anchors": ["mpopt/mpopt.py:post_process.get_non_uniform_interpolation_grid"]}
{"id": "C43", "title": "Optimizer construction", "statement": "Constructing with an integer order uses it for each segment; with a list it is accepted iff the list has n_segments entries, otherwise AssertionError; the number of nodes is the sum of orders plus 1.", "quantifier": "all arguments", "why_tests_cant": "all list lengths", "anchors": ["mpopt/mpopt.py:mpopt.__init__", "mpopt/mpopt.py:mpopt.reset_mpopt"]}
{"id": "C44", "title": "Uniform residual times", "statement": "On the 'fixed' residual grid the times reported for the nodes are equally spaced times of the phase, whatever the segment widths (positive, summing to 1). One of the equally spaced times, the last one of the first segment, is left out.", "quantifier": "all meshes, widths, time horizons", "why_tests_cant": "composition of two maps over all width vectors", "anchors": ["mpopt/mpopt.py:mpopt.get_residual_grid_taus", "mpopt/mpopt.py:mpopt.get_interpolated_time_grid"]}
{"id": "C45", "title": "Relative residuals are within [-1,1]", "statement": "residual_type='relative' returns values in [-1,1] (docstring) without error. False in general: dynamics residuals are divided by the largest dynamics value, not the largest residual, so the internal assertion can fail.", "quantifier": "all solutions", "why_tests_cant": "depends on solution shape", "anchors": ["mpopt/mpopt.py:mpopt.get_dynamics_residuals"]}
{"id": "C46", "title": "Reported variable count", "statement": "The advertised number of optimization variables per phase equals the length of each phase's variable vector. True iff na=0 or n_phases=1.", "quantifier": "all sizes", "why_tests_cant": "tests use na=0 only", "anchors": ["mpopt/mpopt.py:mpopt.create_variables", "mpopt/mpopt.py:mpopt.get_nlp_variables"]}
{"id": "C47", "title": "Collocation cache coherence", "statement": "After any sequence of requests, the nodes and basis cached under an integer degree are those of the scheme for that degree, so results do not depend on request history; custom-node requests never disturb them.", "quantifier": "all request histories", "why_tests_cant": "history quantifier", "anchors": ["mpopt/mpopt.py:Collocation.init_polynomials", "mpopt/mpopt.py:Collocation.init_polynomials_with_customized_roots", "mpopt/mpopt.py:Collocation.get_diff_matrix"]}
{"id": "C48", "title": "State residual is zero when dynamics are met", "statement": "If in a segment the dynamics residual vanishes at m distinct target nodes and m >= the segment order, the state residual of get_states_residuals is 0 at all these nodes.", "quantifier": "all OCPs, meshes, node choices", "why_tests_cant": "real-valued quantifiers", "anchors": ["mpopt/mpopt.py:mpopt.compute_states_from_solution_dynamics", "mpopt/mpopt.py:mpopt.get_states_residuals"]}
{"id": "C49", "title": "Requested residuals are stored", "statement": "process_results stores the state residual iff residual_x and the dynamics residual iff residual_dx. False: residual_x without residual_dx stores nothing.", "quantifier": "all flag combinations and solutions", "why_tests_cant": "combination untested", "anchors": ["mpopt/mpopt.py:mpopt.process_results", "mpopt/mpopt.py:mpopt_adaptive.process_results"]}
{"id": "C50", "title": "Second derivative", "statement": "get_state_second_derivative returns the second time derivative of the state polynomial times the square of the segment half-width (it equals the physical second derivative only when the half-width is 1).", "quantifier": "all meshes, solutions", "why_tests_cant": "test uses half-width 1", "anchors": ["mpopt/mpopt.py:mpopt.get_state_second_derivative_single_phase"]}
{"id": "C51", "title": "Largest residual per segment", "statement": "get_abs_max_residual returns, for every phase, segment and state, the largest absolute residual of that segment and the first position at which it occurs; a segment without residual points makes it raise.", "quantifier": "all residual tables", "why_tests_cant": "never called by the test-suite; all tables", "anchors": ["mpopt/mpopt.py:mpopt_ph_adaptive.get_abs_max_residual"]}
{"id": "C52", "title": "What solve returns is a solution of the user's problem", "statement": "The module-level solve makes one solver call whose feasible points are exactly the packed, scaled trajectories that satisfy bounds, collocated dynamics, path, terminal and linkage constraints of the user's problem on the requested mesh and segment widths. If the solver returns a feasible point, the node values shown by the returned post-processor are those of such a trajectory; and solve returns whenever the solver call returns a vector of the right length.", "quantifier": "all valid problems, numbers of phases and segments, orders, schemes with distinct nodes, widths, solvers", "why_tests_cant": "tests run one solver on a few problems and look at the final plot", "anchors": ["mpopt/mpopt.py:solve", "mpopt/mpopt.py:mpopt.solve", "mpopt/mpopt.py:mpopt.process_results", "mpopt/mpopt.py:mpopt.create_nlp", "mpopt/mpopt.py:post_process.get_data"]}
{"id": "C53", "title": "An optimal solver gives a trajectory of least cost", "statement": "If the solver returns a global minimiser of the NLP it is given, the trajectory shown by the post-processor has the least physical cost (terminal costs plus weighted running costs, in the user's units) among all trajectories that solve the collocated problem on the mesh with the requested widths.", "quantifier": "all valid problems, meshes, widths, solvers, competing trajectories", "why_tests_cant": "quantifies over all competing trajectories", "anchors": ["mpopt/mpopt.py:solve", "mpopt/mpopt.py:mpopt.create_nlp", "mpopt/mpopt.py:mpopt.solve", "mpopt/mpopt.py:post_process.get_data"]}
{"id": "C54", "title": "What mpopt_adaptive returns is a solution of the user's problem with free widths", "statement": "After any history of earlier solve calls on an mpopt_adaptive object, if the solver returns a feasible point of the problem it is given, the node values shown by the post-processor of process_results are those of a trajectory satisfying bounds, collocated dynamics, path, terminal and linkage constraints, with widths between lbh and ubh summing to one per phase, and midpoint bounds and residual limits; the stored widths are those of that trajectory. With positive lbh, solve and process_results on a new object return whenever the solver returns a feasible point.", "quantifier": "all valid problems, meshes, settings of lbh, ubh, tol_residual, mid_residuals, histories of solve calls (also failing ones), solvers", "why_tests_cant": "quantifies over all problems, histories and solver behaviours", "anchors": ["mpopt/mpopt.py:mpopt_adaptive.solve", "mpopt/mpopt.py:mpopt_adaptive.create_solver", "mpopt/mpopt.py:mpopt_adaptive.process_results", "mpopt/mpopt.py:mpopt_adaptive.init_trajectories"]}
{"id": "C55", "title": "An optimal solver gives mpopt_adaptive trajectory and widths of least cost", "statement": "If the solver returns a global minimiser of the NLP it is given, the trajectory shown by mpopt_adaptive has the least physical cost among all trajectories and all admissible segment widths that solve the collocated problem.", "quantifier": "all valid problems, meshes, settings, histories, solvers, competing trajectories and widths", "why_tests_cant": "quantifies over all competing trajectories and meshes", "anchors": ["mpopt/mpopt.py:mpopt_adaptive.solve", "mpopt/mpopt.py:mpopt_adaptive.create_solver", "mpopt/mpopt.py:mpopt_adaptive.process_results", "mpopt/mpopt.py:mpopt_adaptive.init_trajectories"]}
{"id": "C56", "title": "Exact solutions of the continuous-time problem are feasible for the NLP", "statement": "Take a solution of the user's optimal control problem in continuous time (state equations as derivatives, path constraints at every time, bounds, terminal and linkage constraints) whose states are polynomials of the segment's order on every segment. Its values at the collocation nodes satisfy all constraints of the transcribed problem, midpoint control bounds included when the controls are such polynomials too. Controls may jump at segment boundaries. (Slope continuity and slope limits of the controls are not part of the continuous problem and are switched off.) So solve returns whenever its solver finds a feasible point of every call that has one.", "quantifier": "all problems, phases, meshes with nodes inside the segment, positive widths adding up to one, continuous-time solutions", "why_tests_cant": "quantifies over all problems and all exact solutions; tests compare one solution with a tolerance", "anchors": ["mpopt/mpopt.py:mpopt.create_nlp", "mpopt/mpopt.py:mpopt.discretize_phase", "mpopt/mpopt.py:Collocation.get_composite_differentiation_matrix", "mpopt/mpopt.py:Collocation.get_composite_quadrature_weights", "mpopt/mpopt.py:mpopt.solve"]}
{"id": "C57", "title": "The cost of solve with LGR nodes is at most that of any representable exact solution", "statement": "With LGR nodes of order p >= 2 on every segment and a globally optimal NLP solver, the cost of the trajectory returned by solve is at most the true cost, terminal cost plus time integral of the running cost, of every continuous-time solution whose states are polynomials of degree p and whose running cost is a polynomial of degree 2p-2 on the segments. The cost used by the NLP equals that integral for these solutions.", "quantifier": "all problems, meshes, LGR orders at least 2, optimal solvers, competing continuous-time solutions", "why_tests_cant": "quantifies over all competing trajectories; involves integrals in continuous time", "anchors": ["mpopt/mpopt.py:mpopt.create_nlp", "mpopt/mpopt.py:mpopt.discretize_phase", "mpopt/mpopt.py:Collocation.get_composite_differentiation_matrix", "mpopt/mpopt.py:Collocation.get_composite_quadrature_weights", "mpopt/mpopt.py:mpopt.solve"]}
{"id": "C58", "title": "When collocation at the nodes is the differential equation", "statement": "If the states are polynomials of the segment's order and the right-hand side along the trajectory is a polynomial in time of degree less than the number of collocated nodes of the segment (order+1 on the first, order on later ones), the collocation equations at the nodes hold if and only if the differential equation holds at every time of the phase. So with a sound solver every motion of this kind through the values solve shows obeys the differential equation.", "quantifier": "all problems, phases, meshes with nodes inside the segment, positive widths adding up to one", "why_tests_cant": "the claim is about every time between the nodes, for all trajectories", "anchors": ["mpopt/mpopt.py:mpopt.create_nlp", "mpopt/mpopt.py:mpopt.discretize_phase", "mpopt/mpopt.py:Collocation.get_composite_differentiation_matrix"]}
{"id": "C59", "title": "Trajectories returned by the h-adaptive solver are feasible", "statement": "After any calls of solve on an mpopt_h_adaptive object, with any methods, iteration limits and options, some of which may have raised, and initial solutions that are left out or are what the call before returned: if the NLP solver only returns feasible points, then when the last call and process_results return, the node values shown are those of a trajectory that solves the user's collocated problem with the segment widths stored in the object. For an initial solution made by the caller this fails: one with small residuals is returned unchanged even if it violates the constraints.", "quantifier": "all problems, meshes, histories of calls, methods, limits, options, solvers that may answer differently at every call", "why_tests_cant": "tests run a few problems with one solver; the pairing of solution and widths depends on which stopping rule fired in which iteration", "anchors": ["mpopt/mpopt.py:mpopt_h_adaptive.solve", "mpopt/mpopt.py:mpopt_h_adaptive.get_segment_width_parameters", "mpopt/mpopt.py:mpopt.process_results", "mpopt/mpopt.py:mpopt.create_nlp"]}
{"id": "C60", "title": "Trajectories returned by the h-adaptive solver are optimal for the stored widths", "statement": "In the situation of C59 with a solver that returns global minimisers, the trajectory shown has the least cost, terminal cost plus quadrature of the running cost, among all trajectories that solve the collocated problem with the widths stored in the object.", "quantifier": "all problems, meshes, histories of calls, optimal solvers, competing trajectories", "why_tests_cant": "quantifies over all competing trajectories and all histories", "anchors": ["mpopt/mpopt.py:mpopt_h_adaptive.solve", "mpopt/mpopt.py:mpopt.create_nlp", "mpopt/mpopt.py:mpopt.process_results"]}
{"id": "C61", "title": "The error reported by the h-adaptive solver is the largest defect of what it returns", "statement": "After any calls of solve on an mpopt_h_adaptive object the last of which returned, iter_info[iter_count] is None with one segment or an unknown method; otherwise, for valid stored widths, it is the largest absolute scaled defect of the differential equation over all check points of all phases, evaluated for the returned trajectory at the stored widths.", "quantifier": "all problems, meshes, histories of calls, solvers whose vectors have the right length", "why_tests_cant": "the number is printed, never recomputed; whether it belongs to the returned solution depends on the stopping rule", "anchors": ["mpopt/mpopt.py:mpopt_h_adaptive.solve", "mpopt/mpopt.py:mpopt_h_adaptive.get_segment_width_parameters", "mpopt/mpopt.py:mpopt.get_dynamics_residuals"]}
{"id": "C62", "title": "The h-adaptive solver returns", "statement": "Every sequence of calls of solve with at least one iteration each returns, with positive widths summing to one in each phase, and process_results after it returns, provided the NLP solver answers valid problems with vectors of the right length; for the control-slope method phases must have positive duration, and for the equal-area method residuals must not vanish over the end of a phase that misses its tolerance.", "quantifier": "all problems, meshes, histories of calls, methods, solvers", "why_tests_cant": "absence of exceptions and of nan for all inputs and all iterations", "anchors": ["mpopt/mpopt.py:mpopt_h_adaptive.solve", "mpopt/mpopt.py:mpopt_h_adaptive.get_segment_width_parameters", "mpopt/mpopt.py:mpopt.process_results"]}
{"id": "C63", "title": "The adaptive solver is at least as good as every representable solution", "statement": "If a solution of the continuous-time problem (differential equation, path constraints, bounds, phase links, terminal constraints at all times) has states that are polynomials of the segment degrees for some admissible widths, then the cost reported for mpopt_adaptive with LGR orders of at least 2 and an optimal solver is at most the true cost of that solution, integral of the running cost included, provided the running cost along it is a polynomial within the exactness degree.", "quantifier": "all problems, meshes, representable solutions and admissible widths", "why_tests_cant": "quantifies over all solutions of the continuous-time problem and all meshes", "anchors": ["mpopt/mpopt.py:mpopt_adaptive.solve", "mpopt/mpopt.py:mpopt_adaptive.discretize_phase", "mpopt/mpopt.py:mpopt.create_nlp"]}
{"id": "C64", "title": "The h-adaptive solver is at least as good as every solution representable on its final mesh", "statement": "After any calls of solve on an mpopt_h_adaptive object (LGR, orders at least 2, optimal solver) the last of which returned, the cost of what is shown is at most the true cost of any solution of the continuous-time problem that is polynomial on the segments given by the widths stored in the object.", "quantifier": "all problems, meshes, histories of calls, representable solutions", "why_tests_cant": "quantifies over all solutions of the continuous-time problem and all histories", "anchors": ["mpopt/mpopt.py:mpopt_h_adaptive.solve", "mpopt/mpopt.py:mpopt.create_nlp", "mpopt/mpopt.py:mpopt.process_results"]}
{"id": "C65", "title": "Residual grids consist of non-collocation nodes", "statement": "get_residual_grid_taus returns non-collocation nodes (docstring). True for 'mid-points': every point lies strictly between two consecutive nodes of its segment. False for 'spectral': when an order equals _MAX_GRID_POINTS + 2 (17 by default) its points are the interior collocation nodes, and if all orders do, the dynamics residuals of every point satisfying the NLP are reported as 0.", "quantifier": "all schemes, orders, problems and feasible points", "why_tests_cant": "needs the coincidence of order and grid size; then every check passes", "anchors": ["mpopt/mpopt.py:mpopt.get_residual_grid_taus", "mpopt/mpopt.py:mpopt.get_dynamics_residuals"]}
{"id": "C66", "title": "Residual data for plots", "statement": "sort_residual_data(time, residuals, phases) returns the norms of the residuals and the times of the requested phases, point by point, and get_dynamics_residuals(plot=True) hands such data of all phases to the plot. True when there is one phase, or phase 0 comes first and all segments have the same number of points. False otherwise: the first requested phase is always taken to be phase 0, and with two or more phases whose segments have different numbers of points it raises ValueError - always so for the default grid type 'fixed' with equal widths and two or more segments (unless the number of points, max(sum of orders, _MAX_GRID_POINTS), equals the number of segments).", "quantifier": "all problems, meshes, phases, grids, points and norms", "why_tests_cant": "needs several phases together with several segments; the examples plot single-phase or single-segment residuals", "anchors": ["mpopt/mpopt.py:post_process.sort_residual_data", "mpopt/mpopt.py:mpopt.get_dynamics_residuals"]}
{"id": "C67", "title": "Signs of the quadrature weights", "statement": "The quadrature weights of LGR of order at least 2 are 0 at the first node and positive at all others; those of LGL of order at least 2 are all positive. The composite LGR weights over a mesh are 0 at the first node of the first segment and positive at every other collocation node, one per node, so that values nonnegative at those nodes are never summed to a negative number.", "quantifier": "all orders at least 2, all intervals, both integration methods, all lists of orders", "why_tests_cant": "a statement about every order; tables of weights check a few", "anchors": ["mpopt/mpopt.py:Collocation.get_quadrature_weights", "mpopt/mpopt.py:Collocation.get_composite_quadrature_weights", "mpopt/mpopt.py:CollocationRoots.roots_legendre_gauss_radau"]}
{"id": "C68", "title": "The shipped example with a known solution is solved exactly", "statement": "For the problem of examples/singlephase/ocp_with_solution.py (minimise the integral of u^2/2 - x subject to x' = 2(1-u), x(0)=1, on [0,1]), mpopt.solve, mpopt_adaptive.solve and mpopt_h_adaptive.solve with LGR nodes, followed by process_results, return a trajectory with cost exactly -8/3, state 1+6t-2t^2 at all times and control 2(t-1) at all nodes.", "quantifier": "any number of segments, all orders at least 2, all positive segment widths summing to 1 (mpopt_adaptive: bounds on widths that admit equal widths; mpopt_h_adaptive: any sequence of refinements that ends with positive widths summing to 1), any earlier calls, any NLP solver whose answers are globally optimal", "why_tests_cant": "tests run single meshes and compare numbers to a tolerance; here every mesh and order, and exact equality between the nodes as well", "anchors": ["examples/singlephase/ocp_with_solution.py", "mpopt/mpopt.py:mpopt.solve", "mpopt/mpopt.py:mpopt_adaptive.solve", "mpopt/mpopt.py:mpopt_h_adaptive.solve"]}
{"id": "C69", "title": "The shipped problems are admissible; minimum fuel is minimum time", "statement": "The OCP objects built by examples/singlephase/ocp_with_solution.py, moon_lander.py, hyper_sensitive.py and examples/Multi-phase/tpschwartz.py pass validate() and have admissible settings and scales. For the moon lander, what mpopt.solve and mpopt_adaptive.solve with LGR nodes return is a trajectory with fuel exactly 2 + 1.5 tf, and no trajectory of the discretised problem lands earlier.", "quantifier": "any number of segments, all orders at least 2, all positive segment widths summing to 1 (mpopt_adaptive: all positive lower bounds on widths), any earlier calls, any NLP solver whose answers are globally optimal", "why_tests_cant": "tests compare one run with a number; this holds exactly for every mesh", "anchors": ["examples/singlephase/moon_lander.py", "examples/singlephase/hyper_sensitive.py", "examples/Multi-phase/tpschwartz.py", "mpopt/mpopt.py:OCP.validate", "mpopt/mpopt.py:mpopt.solve", "mpopt/mpopt.py:mpopt_adaptive.solve"]}
{"id": "C70", "title": "An optimal solution exists and is returned", "statement": "If the functions of a problem are continuous, the discretised problem has a feasible trajectory and its sublevel sets are bounded (in particular if all bounds on states, controls, times and parameters are finite), then the NLP handed to the solver has a global minimiser; with a solver that returns a global minimiser whenever there is one, mpopt.solve and mpopt_adaptive.solve, followed by process_results, return and show a cheapest trajectory. If this holds at all valid widths, and the phases last where the control-slope method is used, then so do any calls of mpopt_h_adaptive.solve other than those with the equal-area method for residuals: what they show is cheapest at the widths the refinement came to.", "quantifier": "all problems with continuous functions, all schemes with good nodes, all meshes, any number of phases, all widths mpopt.solve accepts", "why_tests_cant": "existence for every problem and mesh; a test can only run problems on which the solver happens to converge", "anchors": ["mpopt/mpopt.py:mpopt.solve", "mpopt/mpopt.py:mpopt.create_nlp", "mpopt/mpopt.py:mpopt_adaptive.solve", "mpopt/mpopt.py:mpopt.process_results"]}
{"id": "C71", "title": "Plots show the trajectory and the residuals", "statement": "For any solution and any requested phases, plot_phases, plot_x and plot_u draw each requested component exactly once per curve kind: its values at the nodes, or the segment polynomials on the plot grid, against the node or grid times of those phases, in physical units (or scaled, as the post-processor was told) and labelled with the component index (from 1 in plot_phases, from 0 in plot_x and plot_u); the residual axes of plot_phases show every component of the state and dynamics residuals at all check points of all phases. The figures of solve(plot=True) follow. Raised instead: IndexError beyond 15 components, ValueError for residuals of differently shaped phases or (with state residuals) segments without check points; for the default call with both residuals exactly when max(sum of orders + 1, 16) < 2 n_segments.", "quantifier": "all problems, meshes, schemes and widths; all solutions; all lists of phases and components; all residual and interpolation options", "why_tests_cant": "figures are not compared by tests, and failures depend on the numbers of states, segments and check points", "anchors": ["mpopt/mpopt.py:post_process.plot_phases", "mpopt/mpopt.py:post_process.plot_x", "mpopt/mpopt.py:post_process.plot_u", "mpopt/mpopt.py:post_process.plot_curve", "mpopt/mpopt.py:post_process.plot_single_variable", "mpopt/mpopt.py:post_process.plot_all", "mpopt/mpopt.py:post_process.plot_residuals", "mpopt/mpopt.py:mpopt.process_results", "mpopt/mpopt.py:solve"]}
{"id": "C72", "title": "Why the h-adaptive loop stops", "statement": "For any solver and residual behaviour, solve returns sol after m solver calls exactly when m <= max_iter, none of the stages before m stops the iteration, stage m does, and sol is the solution there: a stage stops it when its error is below the smallest tol_residual; after max_iter calls; when more than four calls were made and the error is within five per cent of the mean of the last four; or when the widths proposed next are those just used up to five per cent of each new width. Each call starts from the last solution with the widths last proposed, and iter_info records the errors in order. For an object: after any calls the last one stopped for one of these reasons, with the error being the largest defect of the returned trajectory. With one segment the solver runs exactly once.", "quantifier": "all solver and residual behaviours, histories, max_iter; all problems, meshes, methods and sequences of calls", "why_tests_cant": "iteration histories of any length; tests see a few histories and only their final result", "anchors": ["mpopt/mpopt.py:mpopt_h_adaptive.solve", "mpopt/mpopt.py:mpopt_h_adaptive.get_segment_width_parameters"]}
{"id": "C73", "title": "The measured residual bounds the error of the states", "statement": "Let the scaled dynamics residual of a solution be at most D at all instants of a phase, and the dynamics Lipschitz in the states with constant L (largest scaled component) on a set both trajectories stay in. Then at every instant of segment s the scaled states of the solution differ from the exact response of the system to the same interpolated controls by at most (delta + (s+1)(tau1-tau0) D) exp(L (t-t0)), delta being the difference at the start. With no residual the solution is the exact response. The error mpopt_h_adaptive records for the solution it returns bounds the distance with D = that error plus the variation of the residual between the check points.", "quantifier": "all problems, phases, meshes, trajectories, Lipschitz dynamics, responses; all sequences of calls of the h-adaptive class", "why_tests_cant": "the exact response of a system to given controls is not computable in general, and the bound holds at a continuum of times", "anchors": ["mpopt/mpopt.py:mpopt.get_residual_grid_taus", "mpopt/mpopt.py:mpopt.get_dynamics_residuals_single_phase", "mpopt/mpopt.py:mpopt_h_adaptive.solve"]}
{"id": "C74", "title": "CGL weights are positive; composite LGL and CGL rules underestimate", "statement": "The quadrature weights of CGL are positive for every order. Composite LGL (orders at least 2) and CGL weights are positive, one per mesh node; with more than one segment they sum to strictly less than the number of segments times the interval length, and any integrand of sufficiently low degree per segment that is nonnegative at the starts of the later segments, and positive at one, is integrated to strictly less than its integral: the weight at the first node of every later segment is dropped. So a minimum-time cost written as running cost 1 is below the final time for every trajectory.", "quantifier": "all orders, all meshes with two or more segments, both integration methods, all intervals, all trajectories", "why_tests_cant": "a statement about every order and mesh; tests compare single sums", "anchors": ["mpopt/mpopt.py:Collocation.get_quadrature_weights", "mpopt/mpopt.py:Collocation.get_composite_quadrature_weights", "mpopt/mpopt.py:CollocationRoots.roots_chebyshev_gauss_lobatto"]}
{"id": "C75", "title": "Solving again after edits", "statement": "An mpopt object works on its own copy of the problem (with edits made through opt._ocp) until opt._ocp is assigned the user's object, from then on on that object with all its edits; edits of the user's object without the assignment never matter. After any history, a solve with reinitialize_nlp=True that returns shows a trajectory that solves the problem the object then works on, on its current mesh, of least cost when the solver is perfect. The same holds for mpopt_adaptive with the settings at the time of the call; without reinitialisation changed settings have no effect. For mpopt_h_adaptive either the current problem is solved, or the caller's initial solution is returned because its residual for the current dynamics is below the tolerance, and then nothing else of the edited problem is looked at.", "quantifier": "all problems, histories of edits, assignments, mesh changes, resets and calls, all object states, sound or perfect solvers", "why_tests_cant": "a statement about every history and problem; tests solve once", "anchors": ["mpopt/mpopt.py:mpopt.__init__", "mpopt/mpopt.py:mpopt.solve", "mpopt/mpopt.py:mpopt.create_solver", "mpopt/mpopt.py:mpopt_adaptive.solve", "mpopt/mpopt.py:mpopt_h_adaptive.solve", "examples/Multi-phase/falcon9_booster_landing.py"]}
{"id": "C76", "title": "The first segment is over-determined", "statement": "The dynamics are imposed at every node, so the first segment of a phase of order p carries p+1 equations per state. Therefore a linear combination of the states that obeys y' = lam*y + mu with lam nonzero whatever the controls are must stay at its equilibrium -mu/lam at all nodes of the first segment. If the given initial state is off this equilibrium, the NLP has no feasible point for any number of segments, any orders, any scheme and any widths, although the continuous-time problem may have a solution: with a solver that returns feasible points only, neither the module-level solve nor mpopt_adaptive nor mpopt_h_adaptive returns a result.", "quantifier": "all problems with such a mode, all good meshes, widths, trajectories, object histories and sound solvers", "why_tests_cant": "infeasibility on every mesh and for every point; tests use controlled problems, where the control absorbs the extra equation", "anchors": ["mpopt/mpopt.py:mpopt.get_nlp_constraints_for_dynamics", "mpopt/mpopt.py:mpopt.discretize_phase", "mpopt/mpopt.py:CollocationRoots", "mpopt/mpopt.py:solve"]}
{"id": "C77", "title": "Collocated solutions converge on fine meshes", "statement": "At any instant of a segment the scaled defect of a collocated trajectory is at most dt/dtau times the Lebesgue constant of the nodes times the variation of the scaled dynamics on the segment. With dynamics Lipschitz in states, controls and time, rates bounded by B, segments lasting at most H and controls varying by at most e on each, the trajectory is within C*(Lx*C*B*H + Lu*e + Lt*H)*(t-t0)*exp(Lx*(t-t0)) of the exact response to its own controls, so the error goes to zero as H and e do; the error recorded by the h-adaptive class goes to zero as well; for given nodes one Lebesgue constant serves all meshes of bounded order. For the module-level solve with n equal segments the error is O(1/n + e).", "quantifier": "all problems, good meshes, collocated trajectories, constants, sound solvers", "why_tests_cant": "a convergence statement over all meshes and problems; a test compares a few meshes of one problem", "anchors": ["mpopt/mpopt.py:mpopt.get_nlp_constraints_for_dynamics", "mpopt/mpopt.py:Collocation", "mpopt/mpopt.py:mpopt.get_dynamics_residuals", "mpopt/mpopt.py:solve"]}
{"id": "C78", "title": "The running cost on fine meshes", "statement": "For node values of a trajectory along which the running costs are continuous functions of time, the cost of the NLP tends, as the longest segment goes to zero, to the terminal costs plus kappa times the integrals of the running costs, where 1-kappa is the first weight of the rule divided by the length of the interval. For LGR with orders at least 2 kappa is 1: the cost tends to the true cost. For LGL and CGL with one order for all segments kappa lies strictly between 0 and 1 and depends on the nodes only, so a fixed share of every integral is lost on all fine meshes; there are problems with two feasible trajectories of which the truly dearer one is cheaper for the NLP on every fine mesh. The same holds for the objective of the NLP that solve hands to its solver.", "quantifier": "all problems, trajectories with continuous running costs, meshes and widths; LGR orders out of any list", "why_tests_cant": "a limit over all meshes; a test with one or two segments, or with terminal costs only, sees no difference", "anchors": ["mpopt/mpopt.py:Collocation.get_composite_quadrature_weights", "mpopt/mpopt.py:mpopt.get_discretized_dynamics_constraints_and_cost_matrices", "mpopt/mpopt.py:mpopt.discretize_phase", "mpopt/mpopt.py:CollocationRoots"]}
{"id": "C79", "title": "A true motion near every fine collocated solution", "statement": "Take the controls of a collocated solution on a phase. (1) If the dynamics are Lipschitz in the states and continuous along the controls, the exact response from any initial state exists on the whole phase; responses from the same state that stay where the dynamics are Lipschitz are equal. (2) If the dynamics are Lipschitz on a box of states only, and the solution keeps from the sides of the box a distance at least as large as the error bound (a posteriori: from the failure of the dynamics between nodes; a priori: from Lebesgue constant, segment length and variation of the controls), then the exact response from the initial state of the solution exists, stays in the box and within the bound of the solution. Nothing is assumed about the response. (3) The same for the module-level solve with n equal segments and a sound solver.", "quantifier": "all problems, dynamics, meshes, trajectories, boxes and constants meeting the hypotheses", "why_tests_cant": "existence of exact solutions of differential equations for all dynamics; nonlinear dynamics can have solutions that blow up in finite time, which no sample of runs excludes", "anchors": ["mpopt/mpopt.py:mpopt.get_nlp_constraints_for_dynamics", "mpopt/mpopt.py:mpopt.discretize_phase", "mpopt/mpopt.py:Collocation", "mpopt/mpopt.py:solve"]}
{"id": "C80", "title": "The planned controls, flown on the real system, nearly solve the continuous-time problem", "statement": "Take any feasible point of the NLP on a mesh whose widths fill the phases, in a box of states where dynamics, constraints and costs are Lipschitz, at a distance from the sides of the box at least the error bound. (1) There is a motion of the continuous-time system, in all phases, that has exactly the times, parameters and interpolated controls of the plan, starts every phase where the plan does and obeys the differential equation exactly. It meets the bounds on states and controls, the path constraints at every instant, the terminal constraints and the links between phases but for tolerances given by Lebesgue constant, segment length and variation of the controls; initial state, times, parameters, and the links in controls and time hold exactly. (2) The cost the NLP minimises differs from the true integral cost of this motion by at most a given bound (LGR); for other schemes from the cost with the running share kappa of C78. (3) For every tolerance there is a segment length and a variation of the controls below which all tolerances and the error of the cost are smaller. (4) The same for the point returned by the module-level solve with a sound solver; with a solver that returns minimisers the motion costs, but for the bound, no more than any solution of the continuous-time problem that is polynomial on the segments.", "quantifier": "all problems with Lipschitz data, all meshes, all feasible points and constants meeting the hypotheses", "why_tests_cant": "speaks about all instants between the nodes, all problems and the limit of fine meshes; a test compares a few instants of a few problems with a numerical integrator", "anchors": ["mpopt/mpopt.py:mpopt.get_nlp_constraints_for_dynamics", "mpopt/mpopt.py:mpopt.discretize_phase", "mpopt/mpopt.py:mpopt.create_nlp", "mpopt/mpopt.py:Collocation", "mpopt/mpopt.py:solve"]}
{"id": "C81", "title": "What a solver with tolerances delivers", "statement": "An NLP solver stops at a point that respects variable bounds up to eps_b and rows up to eps. (1) The points of the NLP that do so are exactly the points whose decoded trajectory meets, in the units of the user, the initial state and the bounds on states, controls, times and parameters up to eps_b divided by the scale factor of the variable, the collocation equations of every state, the links between phases, the mid-point bounds and the slope continuity up to eps divided by the scale factor, and path constraints, terminal constraints and bounds on the slope of scaled controls up to eps itself. With both tolerances zero this is exactly the collocated problem. (2) When the module-level solve returns and the solver only promises such points, what is shown are the node values of such a trajectory; if the solver is optimal up to eta, its cost exceeds the cost of no exact solution on the mesh by more than eta. (3) The points the solver may return are exactly the packed such trajectories, and solve returns whenever the solver returns one.", "quantifier": "all problems with positive scale factors, all meshes, all tolerances, all solvers, all points", "why_tests_cant": "a test sees the residuals of single runs with one tolerance; here the tolerance that reaches the user is stated for every row and every scale factor", "anchors": ["mpopt/mpopt.py:mpopt.get_nlp_constraints_for_dynamics", "mpopt/mpopt.py:mpopt.get_nlp_variables", "mpopt/mpopt.py:mpopt.discretize_phase", "mpopt/mpopt.py:mpopt.get_event_constraints", "mpopt/mpopt.py:mpopt.create_nlp", "mpopt/mpopt.py:mpopt.solve", "mpopt/mpopt.py:solve"]}
{"id": "C82", "title": "What the tolerances of the solver mean for the real system", "statement": "Take any trajectory that solves the collocated problem only up to tolerances (eps_b for variable bounds, eps for rows, as in C81), under the conditions of C80. (1) On every segment the interpolant fails the differential equation by at most the bound of C77 enlarged by the tolerance of the collocation equations divided by dt/dtau, and stays within the corresponding distance of a motion of the system. So eps is magnified by short segments: with n segments of equal width it enters n times. (2) There is a motion that obeys the differential equation exactly, has the times, parameters and interpolated controls of the plan, starts every phase where the plan does, and meets initial state, bounds, path and terminal constraints and links but for the tolerances of C80 (with the enlarged error) plus eps_b or eps. (3) Its true cost differs from the cost the NLP minimises by at most a given bound (LGR), or from the cost with the running share kappa of C78. (4) For every accuracy wanted there is a segment length, a variation of the controls and a tolerance, per unit of time, below which all of this holds to that accuracy. (5) The same for what the module-level solve shows when the solver only promises tolerances; if the solver is optimal up to eta, the motion costs, but for eta and the bound, no more than any solution of the continuous-time problem that is polynomial on the segments.", "quantifier": "all problems with Lipschitz data, all meshes, all tolerances, all solvers, all points and constants meeting the hypotheses", "why_tests_cant": "a test sees one tolerance on one mesh; the effect of the tolerance on the motion, and how it grows with the number of segments, is a statement about all of them", "anchors": ["mpopt/mpopt.py:mpopt.get_nlp_constraints_for_dynamics", "mpopt/mpopt.py:mpopt.discretize_phase", "mpopt/mpopt.py:mpopt.create_nlp", "mpopt/mpopt.py:mpopt.solve", "mpopt/mpopt.py:Collocation", "mpopt/mpopt.py:solve"]}
{"id": "C83", "title": "Solutions of the real problem nearly solve the collocated one", "statement": "(1) Let a solution of the continuous-time problem have scaled rates that vary by at most w within each segment. Its node values fail the collocation equations by at most D*w per unit of time, D depending on the nodes of a segment only; so they solve the whole collocated problem up to a row tolerance D*w*H (H: longest segment) without any miss of variable bounds, provided the tolerance also covers, where control bounds are imposed between nodes, a constant times the distance of the controls from straight lines on a segment. (2) If rates are continuous and controls have continuous derivatives where needed, then for every nu > 0 the node values solve the collocated problem up to nu*H on every mesh that is fine enough. No smoothness of the problem functions and no polynomial form of the solution is assumed. Bounds on control slopes and slope continuity are excluded. So on fine meshes solve returns for every problem with such a solution if its solver finds points within this tolerance.", "quantifier": "all valid problems, all solutions of the continuous-time problem, all fine meshes of any nodes with orders from a finite list", "why_tests_cant": "a test compares single discretisations with known solutions; the claim covers every problem, solution and mesh, and is what makes a tolerance for the solver meaningful", "anchors": ["mpopt/mpopt.py:mpopt.get_nlp_constraints_for_dynamics", "mpopt/mpopt.py:mpopt.get_nlp_constrains_for_control_input_at_mid_colloc_points", "mpopt/mpopt.py:mpopt.discretize_phase", "mpopt/mpopt.py:mpopt.create_nlp"]}
{"id": "C84", "title": "Optimal plans are nearly optimal on the real system", "statement": "Let the solver return a point that is the best, up to eta0, of all points within its tolerances. (1) The cost of the plan returned by the module-level solve exceeds that of no trajectory solving the collocated problem up to the same tolerances by more than eta0. (2) For LGR nodes the cost of sampled node values differs from the true cost of a motion by at most its variation over a segment times the length of the phases. (3) The motion that results from flying the plan on the real system costs at most eta0 plus explicit error terms more than any given solution of the continuous-time problem whose node values the tolerances cover. (4) In the limit: for every eta > 0 there is a delta > 0 such that, with a row tolerance nu/n on n equal segments and n large enough, every such run whose plan has segments, control variations and tolerance terms of size at most delta can be flown with no constraint missed by more than eta, at a cost at most eta0 + eta above that of any given smooth solution of the real problem, polynomial or not.", "quantifier": "all valid problems with positive scale factors, all such solvers, all runs of solve with LGR nodes and equal segments, all smooth solutions compared with", "why_tests_cant": "a test compares with one known optimum on a few meshes; here minimisers are compared with every admissible motion, and the limit is over all meshes", "anchors": ["mpopt/mpopt.py:mpopt.create_nlp", "mpopt/mpopt.py:mpopt.get_nlp_constraints_for_dynamics", "mpopt/mpopt.py:Collocation.get_composite_quadrature_weights", "mpopt/mpopt.py:mpopt.solve", "mpopt/mpopt.py:mpopt.process_results", "mpopt/mpopt.py:solve"]}
{"id": "C85", "title": "Watching the residuals does not disturb the h-adaptive loop", "statement": "Setting plot_residual_evolution of mpopt_h_adaptive to True only adds a figure: solve returns the same solution (or raises the same error) and leaves the object in the same state. The figure keeps what was drawn before and gets, in order, one group of lines for an initial solution and one for the result of every solver call, labelled with the number of the iteration and showing the norms of the scaled defects at the check points against time. True if phases_to_plot has at most one entry, as it has by default, and the method is not 'control_slope' or at most 75 iterations are allowed. Limits: only the first phase is ever drawn, whatever phases are asked for; with an initial solution two groups carry the number 0; with two or more entries in phases_to_plot no run with several segments and one of the two methods returns; a run with control slopes that would return after more than 75 solver calls raises IndexError.", "quantifier": "all problems with phases, solvers that may behave differently at every call, methods, settings, initial solutions and earlier figures", "why_tests_cant": "a test compares a few runs with and without the figure; the claim covers every course of the iteration, including those that raise", "anchors": ["mpopt/mpopt.py:mpopt_h_adaptive.solve", "mpopt/mpopt.py:mpopt_h_adaptive.compute_seg_width_based_on_residuals", "mpopt/mpopt.py:mpopt_h_adaptive.compute_seg_width_based_on_input_slope", "mpopt/mpopt.py:post_process.plot_residuals", "mpopt/mpopt.py:post_process.sort_residual_data"]}
{"id": "C86", "title": "What solver tolerances mean for the classes with varying widths", "statement": "With an NLP solver that only promises points within tolerances (eps_b for bounds of variables, eps for constraint rows), the node values shown after solve and process_results of mpopt_adaptive are those of a trajectory that solves the collocated problem with free widths up to these tolerances: widths lie within eps_b of their bounds and sum to 1 up to eps (so the last segment ends within eps |tf - t0| of tf), bounds between nodes hold up to eps over the scale, and the weighted defect at the mid points is at most the tolerance of the object plus eps. If the solver is optimal up to eta, no trajectory that solves the problem exactly with admissible widths is cheaper by more than eta. With zero tolerances this is C54 and C55. For mpopt_h_adaptive the trajectory has exactly the stored widths and solves the collocated problem up to eps_b and eps, and is optimal up to eta for these widths. solve always returns when the solver does. process_results returns if eps < 1e-6 and eps_b is below the lower bounds of the widths. Limit: with residuals on the default grid process_results returns only if the widths sum to 1 up to 1e-6, so with coarser solver tolerances it can raise AssertionError after a successful solve.", "quantifier": "all valid problems, meshes, schemes, tolerances, solvers and histories of earlier calls on the same object", "why_tests_cant": "whether and how far a solver leaves the constraints depends on problem and solver; a test sees the tolerance of one solver on a few problems, and an AssertionError appears only for rare tolerances", "anchors": ["mpopt/mpopt.py:mpopt_adaptive.solve", "mpopt/mpopt.py:mpopt.create_nlp", "mpopt/mpopt.py:mpopt_adaptive.process_results", "mpopt/mpopt.py:mpopt.compute_interpolation_taus_corresponding_to_original_grid", "mpopt/mpopt.py:mpopt_h_adaptive.solve"]}
{"id": "C87", "title": "Flying a plan found with varying segment widths", "statement": "With LGR nodes of order at least 2 and an NLP solver that only promises points within tolerances (eps_b, eps), a plan of mpopt_adaptive has segments that need not fill its phases exactly: they end within eps |tf - t0| of tf. Moving the end of each phase to the end of its last segment gives segments that fill the phase and a plan that meets all constraints up to eps_b + theta and eps + theta and costs what it did up to theta per phase, theta being at most eps times the length of the longest phase times the larger of the time scale and the Lipschitz constant of terminal constraints and costs. Given the sizes of the plan (as in C82) the real system, started from the plan's initial state under its controls, has a motion to that end; it nearly meets all constraints, and its true cost is the cost claimed, with explicit error bounds that vanish with segment lengths, control variation and tolerances. For mpopt_h_adaptive the stored widths fill the phase, so the same holds without theta for the result of any history of solve calls; and if the solver returns the best of the points within its tolerances but for eta, the flown plan costs no more than any solution of the continuous-time problem that the stored mesh resolves, but for eta and the sizes of the changes within a segment.", "quantifier": "all valid problems, LGR meshes, tolerances, solvers, histories of earlier calls, and plans of the given sizes", "why_tests_cant": "a test simulates a few plans; that widths off by a solver tolerance and the dynamics between nodes are harmless for every plan needs a proof", "anchors": ["mpopt/mpopt.py:mpopt_adaptive.solve", "mpopt/mpopt.py:mpopt.create_nlp", "mpopt/mpopt.py:mpopt_adaptive.process_results", "mpopt/mpopt.py:mpopt_h_adaptive.solve", "mpopt/mpopt.py:mpopt.process_results"]}
{"id": "C88", "title": "mpopt_adaptive does nearly as well as any smooth motion", "statement": "Node values of a solution of the continuous-time problem solve the problem of mpopt_adaptive, with any widths that fill the phases and respect the width bounds, up to tolerances given by how much rates vary and controls bend within a segment: also the bounds on states and controls and the residual tolerance half-way between nodes. If the solution is smooth and the rates are continuous around it (for instance Lipschitz), these tolerances are any fraction of the segment length on fine meshes, even with residual tolerance 0. Hence, if the solver returns the best of the points within its tolerances but for eta0, the plan shown, flown to the end of its last segments on the real system, costs no more than any solution resolved by some admissible mesh, but for eta0 and the sizes of the changes within a segment. In the limit of many LGR segments with width bounds that admit equal widths and row tolerance proportional to 1/n, it is no worse than any smooth solution but for eta0 and as little as wanted, however the widths come out, provided the sizes of the plan stay bounded.", "quantifier": "all valid problems without derivative constraints on controls, all smooth solutions, all numbers of LGR segments beyond a bound, all solvers with the stated promise", "why_tests_cant": "quantifies over all competing motions and all fine meshes; a test compares with one known optimum on a few meshes", "anchors": ["mpopt/mpopt.py:mpopt_adaptive.solve", "mpopt/mpopt.py:mpopt.create_nlp", "mpopt/mpopt.py:mpopt_adaptive.discretize_phase", "mpopt/mpopt.py:mpopt_adaptive.process_results"]}
{"id": "C89", "title": "States driven by the clock", "statement": "If the dynamics give a linear combination of states a rate that is a polynomial in time of degree below all orders, whatever the other states, controls and parameters are (a mass flow, a clock, a conserved quantity), then in every solution of the collocated problem that combination equals its initial value plus the exact integral of the rate: at and between the nodes, on every segment, and over the phase; so does everything the module-level solve, mpopt_adaptive and mpopt_h_adaptive show with a solver that returns feasible points. Conserved combinations are conserved for every order. If the degree is the order of the first segment of a phase, no trajectory meets the collocation equations and the NLP has no feasible point, though the continuous-time problem may have a solution. A combination with y' = lam*y + R(t), lam nonzero, must be the polynomial solution of this equation on the first segment.", "quantifier": "all problems with such combinations, all good meshes, schemes, widths, times, trajectories, object histories and sound solvers", "why_tests_cant": "exactness and infeasibility for all meshes and all other states and controls; tests compare one trajectory within a tolerance", "anchors": ["mpopt/mpopt.py:mpopt.get_nlp_constraints_for_dynamics", "mpopt/mpopt.py:mpopt.discretize_phase", "mpopt/mpopt.py:CollocationRoots", "mpopt/mpopt.py:solve", "mpopt/mpopt.py:mpopt_adaptive.solve"]}
{"id": "C90", "title": "Running costs as an additional state (Mayer form)", "statement": "Write a problem in Mayer form: one more state whose rate is the running cost, starting at 0, unbounded, its change over each phase added to the terminal cost. In continuous time this loses nothing. On LGR meshes with orders at least 2, and on one segment with any scheme, every state of a collocated trajectory changes over a phase by exactly the quadrature sum of its rates, so a trajectory solves the collocated Mayer form exactly if it solves the collocated problem, its cost state is the one the equations give, and has the same cost. A collocated trajectory of the problem extends to the Mayer form exactly if on the first segment of every phase the running costs at the p+1 nodes lie on a polynomial of degree below p. Hence with optimal solvers, the plan shown for the Mayer form is a plan for the problem with the cost claimed, the best among the plans with this property, never better than the plan for the problem itself, and equally good if that one has the property. With running cost t^p and first order p the NLP of the problem has feasible points and that of the Mayer form has none. On two LGL segments the quadrature sum is not the change of the state.", "quantifier": "all problems, meshes, widths, trajectories, scales of the cost state and optimal solvers", "why_tests_cant": "an equivalence between two formulations over all problems and trajectories, and infeasibility of an NLP; tests compare two numbers from two runs", "anchors": ["mpopt/mpopt.py:mpopt.discretize_phase", "mpopt/mpopt.py:mpopt.get_nlp_constraints_for_dynamics", "mpopt/mpopt.py:Collocation.get_composite_quadrature_weights", "mpopt/mpopt.py:CollocationRoots", "mpopt/mpopt.py:solve"]}
{"id": "C91", "title": "State residuals of chosen phases, with controls and plot", "statement": "get_states_residuals(phases, nodes, residual_type, plot) returns an entry for every phase of the problem: for the phases asked for, the times, the states integrated from the sampled dynamics, the residuals and the controls at the given points (or those of the phase's own grid type), segment by segment, with None for segments without points; None for the phases not asked for. An entry does not depend on what else is asked for; phases=None asks for all; a phase without points or grid type raises IndexError. Relative residuals are divided by the largest absolute integrated state of the component; they need not lie in [-1,1]. plot=True draws the norms of the residuals over the times for all phases; it raises TypeError or ValueError when a phase of the problem is left out, and ValueError when a segment has no points, though without the plot the results are returned.", "quantifier": "all problems, meshes, widths, decision vectors, points and lists of phases", "why_tests_cant": "the shipped tests call it for all phases of one problem without plotting; closed form and exceptions hold for all phases, points and trajectories", "anchors": ["mpopt/mpopt.py:mpopt.get_states_residuals", "mpopt/mpopt.py:mpopt.compute_states_from_solution_dynamics", "mpopt/mpopt.py:post_process.sort_residual_data", "mpopt/mpopt.py:post_process.plot_residuals"]}
{"id": "C92", "title": "Variable bounds for scales of any sign", "statement": "validate checks the number of scales, not their sign. A point is within the variable bounds of the NLP exactly if for every state, control, time and parameter variable: with a positive scale the physical value (value divided by scale) respects the physical bounds; with a negative scale it respects them exchanged, upper bound below and lower bound above; with scale zero the variable is 0 and both bounds are numbers. Hence with a negative scale the NLP of mpopt and of mpopt_adaptive has no feasible point as soon as one variable of that scale has different lower and upper bounds, and with scale zero a variable is stuck at 0 whatever its bounds are, and none can be found if a bound is infinite.", "quantifier": "all valid problems with scales of any sign, all discretizations, variables and points", "why_tests_cant": "tests use positive scales; the claim is about every sign, every kind of variable and infinite bounds", "anchors": ["mpopt/mpopt.py:mpopt.get_nlp_variables", "mpopt/mpopt.py:mpopt.create_nlp", "mpopt/mpopt.py:OCP.validate", "mpopt/mpopt.py:mpopt_adaptive.get_nlp_variables"]}
{"id": "C93", "title": "Relative second derivatives, their plot, and the plot of interpolated trajectories", "statement": "get_state_second_derivative_single_phase(residual_type=\"relative\") divides the second derivatives of the scaled states of a segment by the largest of them over all points and components, and those of the controls likewise. The largest is that of the signed values: if it is positive, no relative value exceeds 1 but there is no lower limit; if it is negative, every relative value is at least 1; if it is zero, as for straight lines, the division is by zero. get_state_second_derivative(plot=True) draws the norms of the second derivatives of the states over the times as points and as a line, phase by phase and segment by segment, when every segment has points and there is one phase or equally many points in all segments; otherwise it raises ValueError, though the results are returned without the plot. interpolate_single_phase with \"plot\" in its options returns the same results and draws the scaled node values as labelled points over the node times and the scaled polynomials at the given points as lines, for at most 15 states and 15 controls; with more it raises IndexError.", "quantifier": "all problems, meshes, widths, decision vectors, phases and points", "why_tests_cant": "no shipped test asks for relative second derivatives or these plots; range, closed form and exceptions hold for all points and trajectories", "anchors": ["mpopt/mpopt.py:mpopt.get_state_second_derivative", "mpopt/mpopt.py:mpopt.get_state_second_derivative_single_phase", "mpopt/mpopt.py:mpopt.interpolate_single_phase", "mpopt/mpopt.py:post_process.sort_residual_data", "mpopt/mpopt.py:post_process.plot_all"]}
{"id": "C94", "title": "What solve_ph does behind the statement at which it raises", "statement": "solve_ph raises UnboundLocalError on every input. Were grid_type, which it does not use, not read, then for a constructed object: every mesh solved has one order per segment, orders within the limits of the object, at least the segments of the object and at most 2^k times as many in iteration k; the limit on the number of segments is not looked at. Every solve uses the widths given in mpopt_options, or equal ones: the refined widths are never used except for their number, and they agree with the equal ones exactly if all segments of the last phase are halved or none. Orders and splits of the next mesh come from the residuals of the last phase alone: an order is raised by 3 up to the limit where the first solution misses the tolerance, and halved are exactly the segments where the second one misses it and the second derivative of some state exceeds at some point, in size, the threshold times all its sizes in the first solution. A new iteration has more collocation points or the very same mesh, and a solver that answers equal questions equally then returns the same solution however many iterations are allowed. What is returned solves one of these meshes and has some phase within the tolerance, or is the answer to the last call; one good phase of the first solution is enough to return it, whatever the others are like. With a sound solver the point returned is a trajectory of the collocated problem on its mesh. With no iteration allowed there is nothing to return and UnboundLocalError is raised.", "quantifier": "all objects made by the constructor, all problems, all solvers, residual and second-derivative functions, all numbers of iterations", "why_tests_cant": "the method raises before it reaches this code, so no test can run it; the claims are about every solver and every number of iterations", "anchors": ["mpopt/mpopt.py:mpopt_ph_adaptive.solve_ph", "mpopt/mpopt.py:mpopt_ph_adaptive.get_abs_max_residual", "mpopt/mpopt.py:mpopt.solve", "mpopt/mpopt.py:mpopt.reset_mpopt"]}
{"id": "C95", "title": "The solver classes compared", "statement": "On the same mesh a trajectory is accepted by mpopt and meets the mid-point conditions and limits on widths exactly if it is accepted by mpopt_adaptive and its control slopes are continuous where du_continuity asks for it. With optimal solvers the trajectory shown by mpopt_adaptive costs no more than the one shown by mpopt if the latter meets those conditions, and no less if mpopt is asked for the widths mpopt_adaptive found and the slopes continue. With orders one, a start within the state bounds, mid_residuals off and widths within the limits it is never worse. Neither condition can be left out: there are problems that mpopt solves and for which mpopt_adaptive has no feasible point, because of the residuals half-way between nodes, or because the start is outside the state bounds, which mpopt overwrites. mpopt asked for the widths at which mpopt_h_adaptive stopped shows a trajectory of the same cost.", "quantifier": "all valid problems, meshes, settings, histories, optimal solvers, trajectories", "why_tests_cant": "compares optimal values of different NLPs for all problems; a numerical run compares two numbers of one problem", "anchors": ["mpopt/mpopt.py:mpopt_adaptive.get_nlp_constrains_for_segment_widths", "mpopt/mpopt.py:mpopt_adaptive.discretize_phase", "mpopt/mpopt.py:mpopt.create_nlp", "mpopt/mpopt.py:mpopt.discretize_phase", "mpopt/mpopt.py:mpopt_h_adaptive.solve"]}
{"id": "C96", "title": "The same problem in other units", "statement": "Measure states, controls, parameters and time in other positive units and from other zeros, costs in another unit, and convert everything in the problem accordingly: functions, bounds, event bounds (which are differences, so without the shift of the zero), guesses and scale factors. Then a trajectory solves the converted collocated problem of mpopt, and that of mpopt_adaptive, exactly if it solves the original one in the old units; its cost is the old one in the new unit; the converted problem is valid and has positive scales if the original is; the starting point given to the solver is the same trajectory. What solve of either class shows with an optimal solver is, converted back, of least cost in the original problem. In particular, if no function reads the clock and terminal functions read at most the duration, posing the problem later moves the solution and changes nothing else; with a cost that reads the final time this is false.", "quantifier": "all valid problems, meshes, trajectories, changes of units, settings, solvers", "why_tests_cant": "a numerical run checks one change of units of one problem up to rounding and solver tolerance", "anchors": ["mpopt/mpopt.py:mpopt.create_variables", "mpopt/mpopt.py:mpopt.discretize_phase", "mpopt/mpopt.py:mpopt.get_nlp_variables", "mpopt/mpopt.py:mpopt.get_event_constraints", "mpopt/mpopt.py:mpopt.init_solution_per_phase", "mpopt/mpopt.py:mpopt_adaptive.discretize_phase"]}
{"id": "C97", "title": "Calls of mpopt_h_adaptive.solve that refine nothing", "statement": "When mpopt_options names neither of the two methods (for instance misspells one, as examples/Multi-phase/tpschwartz.py does with 'residuals'), or there is one segment, a call of solve that returns has run the NLP solver exactly once, with equal segment widths, whatever max_iter is and whatever widths earlier calls had found; the solver gets the caller's starting point, and iter_info holds one entry without an error. With optimal solvers the result of such a call, after any earlier calls on the same object, costs exactly what mpopt finds on the same mesh without being given widths.", "quantifier": "all h-adaptive objects, histories, options, iteration limits, problems, solvers", "why_tests_cant": "the unknown method raises nothing and returns a plausible solution; only the record shows that nothing was refined, and a test exercises one spelling and one history", "anchors": ["mpopt/mpopt.py:mpopt_h_adaptive.solve", "mpopt/mpopt.py:mpopt_h_adaptive.get_segment_width_parameters"]}
{"id": "C98", "title": "The shipped two-phase problem is solved exactly", "statement": "For the problem of examples/Multi-phase/tpschwartz.py (two linked phases, a path constraint and bounds in the first, a terminal cost in the second) the continuous-time optimum is 0. With an optimal NLP solver mpopt and every run of mpopt_h_adaptive (with the widths it ends with) return a trajectory of cost exactly 0 that ends at rest at the origin, for every collocation scheme with nodes inside its interval, at least two segments of orders at least 3 (as in the script) or any number with orders at least 4, and any widths; mpopt_adaptive does so with orders at least 11 and width limits that admit equal widths. On one segment of order one every trajectory of the collocated problem costs 81.05.", "quantifier": "all such meshes, schemes, widths, histories of calls, optimal solvers", "why_tests_cant": "a run of the script shows one mesh, one solver and a cost that is small; that it is zero for all meshes, and from which orders on, cannot be seen from runs", "anchors": ["examples/Multi-phase/tpschwartz.py", "mpopt/mpopt.py:mpopt.solve", "mpopt/mpopt.py:mpopt_h_adaptive.solve", "mpopt/mpopt.py:mpopt_adaptive.solve"]}
{"id": "C99", "title": "One phase, or the same problem as two linked phases", "statement": "A one-phase problem without parameters, whose terminal cost and constraints look at the end only, can be written with two linked phases. A two-phase trajectory solves the collocated problem exactly if the joined trajectory solves the one-phase problem on the segments twice over and, in addition, meets the dynamics (and with diff_u the slope bounds) at the junction from the right; with du_continuity the one-phase problem asks for equal control slopes there, the two-phase one does not. The two-phase cost is larger by the first quadrature weight times the running cost at the junction. So with LGR nodes of order at least 2, a fixed phase cut in the middle and optimal solvers, the two-phase run never returns a cheaper solution. Cutting may lose all solutions: for dynamics that switch at the junction the one-phase NLP has an exact solution and the two-phase NLP none, for LGR segments of every order at least 2.", "quantifier": "all such problems, meshes, schemes, widths, trajectories, optimal solvers; the lost problem for all orders from 2", "why_tests_cant": "a pair of runs shows one problem where both formulations agree to the tolerance of the solver; which equations differ, and that the difference can make the problem infeasible on every mesh, is not visible", "anchors": ["mpopt/mpopt.py:mpopt.get_event_constraints", "mpopt/mpopt.py:mpopt.get_discretized_dynamics_constraints_and_cost_matrices", "mpopt/mpopt.py:Collocation.get_composite_quadrature_weights", "mpopt/mpopt.py:mpopt.solve"]}
{"id": "C100", "title": "Segments of order one are Euler's method with half the running cost", "statement": "On segments of order one the collocated problem is Euler's implicit method, with the equation of the explicit method for the first step in addition; control bounds between nodes add nothing and du_continuity forces every control to change by the same amount in every step. All schemes except LG, also misspelled ones, give this problem. All composite quadrature weights are equal, so each step but the first contributes half its length times the running cost at its end: with an optimal solver, solve(poly_orders=1) minimises terminal cost plus about half the running cost. For x'=u, x(0)=0 and cost -x(1)+int u^2 the best control is 1/2; the run returns the control 1 after its first segment, on every mesh and with every such scheme, and steady control 1 truly costs as much as doing nothing.", "quantifier": "all problems, numbers of segments, widths, schemes other than LG, trajectories, optimal solvers; the example for every number of segments", "why_tests_cant": "a run with order one returns a smooth plausible solution; that every mesh and scheme gives the same wrong minimiser cannot be seen from runs, which differ by solver tolerances and discretisation errors", "anchors": ["mpopt/mpopt.py:Collocation.get_composite_quadrature_weights", "mpopt/mpopt.py:CollocationRoots.get_collocation_points", "mpopt/mpopt.py:mpopt.get_discretized_dynamics_constraints_and_cost_matrices", "mpopt/mpopt.py:mpopt.solve", "mpopt/mpopt.py:solve"]}
{"id": "C101", "title": "Segments of higher order gain powers of the segment length", "statement": "Node values of a solution of the continuous-time problem fail the collocation equations, per unit of time, by no more than a constant of the nodes times how badly polynomials of degree below the segment's order fit the rates along it; control bounds between nodes by how badly polynomials of the order fit the controls; all other constraints hold exactly. With nonnegative weights, the cost of these values differs from the true cost by at most twice the length of the phases times how badly polynomials of the degrees that the weights integrate fit the running costs. So, on n equal segments of order at least p: if rates along the solution have p continuous derivatives, its node values solve the collocated problem up to c/n^(p+1), for nodes of any scheme; if running costs have 2p-1, LGR costs are right up to c/n^(2p-1). Hence, with a solver that returns the best of the points within its tolerances but for eta and a row tolerance of at least c/n^(p+1), the cost found by solve with LGR nodes of order p >= 2 exceeds that of the solution by at most eta + c/n^(2p-1), for every n.", "quantifier": "all valid problems without derivative constraints on controls, all smooth solutions compared with, all orders, all numbers of equal segments, all solvers with the stated promise", "why_tests_cant": "a rate of convergence is a statement about all meshes and one constant; runs show a few errors, mixed with solver tolerances", "anchors": ["mpopt/mpopt.py:mpopt.solve", "mpopt/mpopt.py:solve", "mpopt/mpopt.py:Collocation.get_composite_differentiation_matrix", "mpopt/mpopt.py:Collocation.get_composite_quadrature_weights", "mpopt/mpopt.py:CollocationRoots.get_collocation_points"]}
{"id": "C102", "title": "A problem that asks for less is solved at no higher cost", "statement": "Widen bounds, drop or weaken path and terminal constraints, drop phase links, switch off mid-point bounds, slope bounds or slope continuity, in any combination, keeping sizes, dynamics and start. Then every trajectory that solves the collocated problem solves the looser one on the same mesh, with fixed or free segment widths. With optimal solvers, what solve shows for the looser problem costs no more than what it shows for the stricter one, and the same if it meets the stricter problem; guesses, starting points, plugins, options and, but for the controls under slope bounds and for the states with mid_residuals, scale factors need not be the same. mpopt_adaptive: also when limits on widths are widened and tolerances raised. mpopt_h_adaptive: if both runs stop at the same widths. If costs are lowered too, the same holds when no quadrature weight is negative and phases run forwards.", "quantifier": "all pairs of valid problems one of which is looser, meshes, widths, settings, histories, optimal solvers", "why_tests_cant": "compares two runs over all ways of loosening; a dropped or misplaced row of bounds shows only for problems in which that bound is active", "anchors": ["mpopt/mpopt.py:mpopt.create_nlp", "mpopt/mpopt.py:mpopt.solve", "mpopt/mpopt.py:mpopt_adaptive.solve", "mpopt/mpopt.py:mpopt_h_adaptive.solve"]}
{"id": "C103", "title": "A solver that finds local minimisers gives locally best trajectories, and best ones for convex problems", "statement": "If the NLP solver returns a local minimiser of the problem it is given, then no trajectory that solves the collocated problem and lies close enough, in physical units, to the one shown is cheaper: for solve, for mpopt_adaptive (segment widths close as well) and for mpopt_h_adaptive (with the stored widths). Call a problem convex if dynamics and terminal constraints are affine and path constraints and costs convex in states, controls and parameters. Mixtures of two trajectories that solve a convex collocated problem with the same times and widths solve it too and cost no more than the mixture of their costs, if no quadrature weight and no width is negative. So for convex problems with fixed times the trajectory shown is best of all, with any solver that finds local minimisers; and if the running cost is strictly convex in the controls, any two runs show the same controls at all nodes of positive weight. The shipped problem with a known solution is of this kind: every such solver finds it exactly. Without convexity a run may show a trajectory costing -9/16 where another costs -25/16.", "quantifier": "all valid problems, meshes, widths, settings, histories, solvers returning local minimisers", "why_tests_cant": "no run shows that nothing nearby is cheaper; IPOPT only claims local optimality, and a wrong row or an unscaled bound would let its local minimiser be improved in physical units", "anchors": ["mpopt/mpopt.py:mpopt.create_nlp", "mpopt/mpopt.py:mpopt.solve", "mpopt/mpopt.py:mpopt_adaptive.solve", "mpopt/mpopt.py:mpopt_h_adaptive.solve", "examples/singlephase/ocp_with_solution.py"]}
{"id": "C104", "title": "The interval on which nodes are placed does not matter, apart from slope limits and residuals", "statement": "_TAU_MIN and _TAU_MAX choose the interval on which collocation nodes are placed. Nodes of every scheme on one interval are those on another, moved by an affine map, and the composite quadrature weights are multiplied by the ratio of lengths. A trajectory solves the collocated problem on one interval exactly if it solves it on the other with limits on control slopes multiplied by the inverse ratio, at the same cost; the same holds for mpopt_adaptive if tolerances on mid-point residuals are multiplied too. So runs of solve and of mpopt_adaptive with different intervals (and different D_MATRIX_METHOD), converted limits and solvers returning global minimisers show trajectories of the same cost that solve the same problem; problems without slope limits need no conversion. Without conversion the limits mean something else: a trajectory that solves a problem on [-1, 1] may fail to solve it on [0, 1]. If the settings are changed after the problem was solved, get_data(interpolate=True) evaluates the solution's polynomials at wrong points: for one segment of order one, solved on [-1, 1] and shown after _TAU_MIN = 0, the state shown at the initial time is 2 x0 - x1.", "quantifier": "all valid problems, meshes, schemes, pairs of intervals, settings, solvers, numbers of phases", "why_tests_cant": "the suite uses [-1, 1] and [0, 1] in different tests and never compares runs; equality of feasible sets and costs is a statement about all trajectories", "anchors": ["mpopt/mpopt.py:CollocationRoots", "mpopt/mpopt.py:CollocationRoots.get_collocation_points", "mpopt/mpopt.py:Collocation.get_composite_quadrature_weights", "mpopt/mpopt.py:post_process.get_interpolated_data", "mpopt/mpopt.py:mpopt.get_nlp_constraints_for_control_input_slope"]}
{"id": "C105", "title": "The numbering of states, controls, parameters, links, constraints and later phases does not matter", "statement": "Give the states, controls and parameters of a problem other numbers, list its links, its path and terminal constraints and the phases after the first in another order, and change dynamics, costs, bounds, flags and, if asked for, widths, limits and tolerances accordingly. The trajectories that solve the new collocated problem are exactly the renumbered ones that solve the old one, at the same cost. So with optimal solvers solve, mpopt_adaptive and mpopt_h_adaptive (if both runs stop at the same widths) show trajectories of the same cost for both problems, and each is, renumbered, a best trajectory of the other problem; guesses, starting points, plugins, options and most scale factors need not correspond. The first phase must stay first: the start is that of the phase listed first, although links may say it comes later. The default starting point is not renumbered when there are two or more controls.", "quantifier": "all valid problems, permutations, meshes, widths, settings, histories, optimal solvers", "why_tests_cant": "no test solves a problem twice with variables or phases in different order, and there are n! orders", "anchors": ["mpopt/mpopt.py:mpopt.create_nlp", "mpopt/mpopt.py:mpopt.discretize_phase", "mpopt/mpopt.py:mpopt.get_event_constraints", "mpopt/mpopt.py:mpopt.init_solution_per_phase", "mpopt/mpopt.py:mpopt_adaptive.discretize_phase", "mpopt/mpopt.py:OCP"]}
{"id": "C106", "title": "Lower bounds on the cost proved for the continuous problem hold for the NLP; the mine example", "statement": "Attach to every phase a function V(t, x), affine in the states with polynomials in time as coefficients, such that running cost plus rate of change of V is nonnegative wherever bounds and path constraints hold, and terminal costs plus the fall of V over the phases are at least a number L for all ends that meet bounds, terminal constraints and links. Then no solution in continuous time costs less than L, and, for LGR meshes whose orders exceed the degrees, neither does any trajectory the NLP solver can return, for solve, mpopt_adaptive and mpopt_h_adaptive, provided no phase ends before it starts: discretisation cannot find a cost better than a low-degree certificate allows, however coarse the mesh. For the shipped mine example with orders at least 2k and an optimal solver the profit found lies between the true maximum 1/5 and 1/5 + (4/5)/4^(2k). With several LGL or CGL segments the bound is false.", "quantifier": "all problems, certificates, LGR meshes, orders, widths, settings, histories, sound solvers", "why_tests_cant": "the bound is about every feasible point of the NLP on every mesh; the mine example is imported by the tests but never solved", "anchors": ["mpopt/mpopt.py:mpopt.create_nlp", "mpopt/mpopt.py:mpopt.discretize_phase", "mpopt/mpopt.py:mpopt.get_discretized_dynamics_constraints_and_cost_matrices", "mpopt/mpopt.py:mpopt_adaptive.discretize_phase", "mpopt/mpopt.py:CollocationRoots.roots_legendre_gauss_radau", "examples/singlephase/mine_opt_wiki.py"]}
{"id": "C107", "title": "Nothing keeps a phase running forward in time except the bounds on its times", "statement": "If for every phase the latest start (own bound, or bound on the end of a phase linked to it) is not after the earliest end, then every trajectory the NLP admits runs forward in every phase; this covers all one-phase problems with default time bounds and the shipped two-phase example, for which the lower bounds of C106 then hold without further condition. Default bounds of two phases do not have the property, and neither validate nor the NLP adds it: in the race x' = u, |u| <= 1, from 0 to 1 with final time as cost and two phases, every true solution takes at least time 1 and time 1 is attained, but on every mesh of orders at least 2 the NLP has a trajectory with final time 0, so that with a perfect NLP solver solve, mpopt_adaptive and mpopt_h_adaptive all show a race won at time 0 whose second phase runs backward. With time spent in the second phase as cost the NLP has trajectories of cost -tau for all tau, and with solvers that only return minimisers solve never returns.", "quantifier": "all problems with ordered time bounds; all LGR meshes of orders at least 2, widths, settings, histories, optimal solvers", "why_tests_cant": "a test sees one local solution from one starting point; that a minimum with reversed time exists on every mesh, or that none exists, is a statement about all feasible points", "anchors": ["mpopt/mpopt.py:OCP.__init__", "mpopt/mpopt.py:OCP.validate", "mpopt/mpopt.py:mpopt.create_nlp", "mpopt/mpopt.py:mpopt.get_event_constraints", "mpopt/mpopt.py:mpopt.create_variables"]}
{"id": "C108", "title": "Problems that have no solution are infeasible on every mesh, and are never reported as unsolvable", "statement": "If what is asked of the starts and ends of the phases is contradictory, no trajectory meets the NLP constraints, on any good mesh of any scheme, for any widths that fill the phases. If some function V(t, x), affine in the states with polynomials in time as coefficients, cannot fall wherever bounds and path constraints hold, it does not fall over a phase of any trajectory collocated at LGR nodes of sufficient orders; so a problem that asks for a fall has no feasible point on these meshes, as it has no solution in continuous time. For such problems solve, mpopt_adaptive and mpopt_h_adaptive never return with a solver that only returns feasible points; what any other solver hands back is shown like a solution, since its status is not looked at. The problem that the test suite solves (test_ocp) passes validate and is of the first kind; the shipped moon lander with a latest landing time of 3.5 is of the second kind; and the shipped moon lander never lands before 3.69.", "quantifier": "all problems, meshes, orders, widths, settings, histories, solvers", "why_tests_cant": "infeasibility is a statement about all points of all NLPs; the tests run the solver on an infeasible problem without noticing", "anchors": ["mpopt/mpopt.py:mpopt.solve", "mpopt/mpopt.py:mpopt.create_nlp", "mpopt/mpopt.py:mpopt.discretize_phase", "mpopt/mpopt.py:OCP.validate", "mpopt/mpopt.py:solve", "mpopt/mpopt.py:mpopt_adaptive.solve", "mpopt/mpopt.py:mpopt_h_adaptive.solve"]}
{"id": "C109", "title": "A quantity used up at known rates and dropped between phases is exact on every mesh; the shipped launcher therefore minimises the time of burnout", "statement": "If a state has a constant rate in each phase, whatever the other states and the controls do, and jumps by a given amount at each link between consecutive phases, then on every good mesh of every scheme, for all orders and all widths that fill the phases, its polynomial equals the starting value plus what the rates and jumps give, at and between the nodes; and the same holds along every continuous-time solution. The shipped multi-stage launch vehicle passes validate and is of this kind in its mass, with and without drag: the masses at the ends of its first three phases equal their lower bounds, 23464 kg are left when the last stage ignites, its burnout lies between 824 s and 961 s although the script admits up to 1024 s, and the cost is an affine function of the time of burnout. So what solve, mpopt_adaptive and mpopt_h_adaptive show with a globally optimal NLP solver has the earliest burnout of all trajectories of the collocated problem, for any forces and any target.", "quantifier": "all problems with such a state, all meshes, schemes, orders, widths, forces, targets, histories", "why_tests_cant": "no test runs the launch vehicle; a run shows one mesh and one local solution", "anchors": ["mpopt/mpopt.py:mpopt.solve", "mpopt/mpopt.py:mpopt.create_nlp", "mpopt/mpopt.py:mpopt.get_event_constraints", "mpopt/mpopt.py:mpopt.get_nlp_constraints_for_dynamics", "mpopt/mpopt.py:OCP.validate", "mpopt/mpopt.py:solve", "mpopt/mpopt.py:mpopt_adaptive.solve", "mpopt/mpopt.py:mpopt_h_adaptive.solve"]}
{"id": "C110", "title": "The terminal constraints of the shipped launcher do not tell four orbits apart", "statement": "The final state that the launch script guesses (ae_to_rv of the required elements, at the perigee) meets its terminal constraints exactly. So do the perigee states with the opposite sign of the ascending node, of the argument of perigee, or of both, though their angular momentum points to the other side or their perigee lies on the other side of the equator: the two quadrant checks of the script are commented out. The terminal constraints the NLP imposes hold for every trajectory that ends in any of the four states.", "quantifier": "all masses, times, meshes, trajectories, forces", "why_tests_cant": "no test runs the launch vehicle; a run ends in one of the orbits", "anchors": ["mpopt/mpopt.py:mpopt.get_nlp_constraints_for_terminal_contraints", "mpopt/mpopt.py:OCP.get_terminal_constraints"]}
{"id": "C111", "title": "Rest points are feasible on every mesh and bound the optimal cost; the shipped Van der Pol problem costs between 5/8 and 20", "statement": "If a state, held by a constant control, is at rest under the dynamics of each phase and meets bounds, path and terminal constraints and links, then staying there is feasible on every mesh whose nodes lie inside the interval, whatever the orders and the widths that fill the phases, for mpopt and for mpopt_adaptive with any admissible widths and tolerances; on meshes whose weights integrate constants it costs exactly what staying costs in continuous time, and it is a continuous-time solution. So what solve, mpopt_adaptive and mpopt_h_adaptive show with a globally optimal NLP solver on LGR meshes of orders at least 2 costs no more. The shipped problem dae_vdp.py passes validate, starts at such a point, and all three classes show a cost between 5/8 and 20 and a second state that is at least the parameter, hence at least 1/4, at every node: its bound -0.25 on that state excludes nothing, and its parameter is not determined (every value from 1/4 up to the one found serves at the same cost). With a perfect solver the calls of the script return, those of mpopt_h_adaptive with its control-slope method included.", "quantifier": "all problems with a rest point, all meshes, orders, widths, tolerances, methods, histories", "why_tests_cant": "no test runs dae_vdp.py; a run shows one mesh and one local solution", "anchors": ["mpopt/mpopt.py:mpopt.solve", "mpopt/mpopt.py:mpopt.create_nlp", "mpopt/mpopt.py:mpopt.get_nlp_constraints_for_dynamics", "mpopt/mpopt.py:mpopt.get_nlp_constraints_for_path_contraints", "mpopt/mpopt.py:OCP.validate", "mpopt/mpopt.py:solve", "mpopt/mpopt.py:mpopt_adaptive.solve", "mpopt/mpopt.py:mpopt_h_adaptive.solve"]}
{"id": "C112", "title": "With one segment per phase all three node schemes keep the guarantees that several segments have only with LGR", "statement": "With one segment of order p per phase the weights are nonnegative, all but perhaps the first are positive, and they integrate polynomials of degree 2p-2 (LGR), 2p-1 (LGL) and p (CGL) exactly; degree 2p-1 is too much for LGR and degree 2p for every scheme. Hence, for solve with any of the three schemes: a lower bound on the cost that is certified for the continuous problem (C106, with coefficients of matching degree) holds for whatever feasible point the NLP solver returns; with a globally optimal NLP solver the trajectory shown costs no more than any continuous-time solution with polynomial states of degree p and running cost of the degree above, and no more than any rest point. mpopt_adaptive has all three guarantees (continuous-time solutions need polynomial controls, too; rest points need width limits and tolerances that are not negative), and mpopt_h_adaptive those about certificates and rest points if it ends with positive widths of sum 1. For LGL and CGL with several segments this is false (C74, C106_not_lobatto). On the Van der Pol problem of the test suite, with any of the schemes and any order from 2, solve with a perfect NLP solver returns, and the cost is between 30/103 and 20. What the two adaptive classes show with a globally optimal solver lies between the same bounds.", "quantifier": "all problems, schemes, orders from 2 (CGL from 1), intervals, solver options, certificates, rest points, continuous-time solutions", "why_tests_cant": "the fixtures run one order each and assert only array shapes; of the three tests of the schemes, which share one name, only the last is collected", "anchors": ["mpopt/mpopt.py:mpopt_adaptive.solve", "mpopt/mpopt.py:mpopt_h_adaptive.solve", "mpopt/mpopt.py:Collocation.get_quadrature_weights", "mpopt/mpopt.py:Collocation.get_composite_quadrature_weights", "mpopt/mpopt.py:CollocationRoots.roots_legendre_gauss_lobatto", "mpopt/mpopt.py:CollocationRoots.roots_chebyshev_gauss_lobatto", "mpopt/mpopt.py:mpopt.solve", "mpopt/mpopt.py:mpopt.create_nlp", "mpopt/mpopt.py:solve"]}
{"id": "C113", "title": "Negative phase numbers count from the end, except where slices are taken: -1 is lost there", "statement": "Links between phases given by negative numbers produce exactly the NLP of the links between the phases they name, for all three classes; get_data likewise, original and interpolated. A link or first phase that names no phase raises IndexError. The residuals of the dynamics, the integrated states (get_states_residuals) and second derivatives of phase -2, -3, ... are those of the phase named. Phase -1 is an exception: the slice of segment widths from -n to 0 is empty. With -1 among the phases, get_states_residuals always raises, as do the residuals of the dynamics as soon as a segment has a node; the equally spaced grid fails its assertion. Second derivatives at given nodes work with -1.", "quantifier": "all problems, numbers of phases, links, solution vectors, grids, lists of phases", "why_tests_cant": "no test uses a negative phase number", "anchors": ["mpopt/mpopt.py:mpopt.get_event_constraints", "mpopt/mpopt.py:mpopt.create_nlp", "mpopt/mpopt.py:mpopt.get_states_residuals", "mpopt/mpopt.py:mpopt.compute_states_from_solution_dynamics", "mpopt/mpopt.py:mpopt.get_dynamics_residuals_single_phase", "mpopt/mpopt.py:mpopt.get_residual_grid_taus", "mpopt/mpopt.py:mpopt.get_state_second_derivative_single_phase", "mpopt/mpopt.py:post_process.get_data"]}
{"id": "C114", "title": "At LGR nodes quadratic quantities lose what the dynamics keep; LGL keeps them on one segment", "statement": "Let q be a quadratic form of the states. On every segment of LGR nodes there are positive weights and a positive constant, depending only on the nodes, such that for every problem and collocated trajectory the change of q over the segment is the weighted sum of its rates under the dynamics at the nodes after the first, minus the constant times q of the leading coefficients of the states. So a nonnegative q that the dynamics never increase falls from segment to segment, whatever feasible point the solver returns, for all three classes. A positive definite q that the dynamics keep can be kept on segments of order 1 or 2 only by states that do not move: a quarter turn of a rotating point, solvable in continuous time, has no collocated trajectory for any number of LGR segments of order at most 2, so no class ever returns one. On a single segment of LGL nodes the change is exactly the weighted sum with the weights of the cost; there the quarter turn has a solution with order 2.", "quantifier": "all problems, quadratic forms, trajectories, numbers of segments, orders, widths", "why_tests_cant": "tests look at one solution; that a problem has no collocated solution at all cannot be observed", "anchors": ["mpopt/mpopt.py:CollocationRoots.roots_legendre_gauss_radau", "mpopt/mpopt.py:CollocationRoots.roots_legendre_gauss_lobatto", "mpopt/mpopt.py:mpopt.get_nlp_constraints_for_dynamics", "mpopt/mpopt.py:mpopt.create_nlp", "mpopt/mpopt.py:mpopt.solve", "mpopt/mpopt.py:mpopt_adaptive.solve", "mpopt/mpopt.py:mpopt_h_adaptive.solve", "mpopt/mpopt.py:solve"]}
{"id": "C115", "title": "Symmetries of the problem are symmetries of the NLP", "statement": "Let affine maps of states and controls be given that turn the dynamics into themselves and preserve bounds, start, links, path and terminal constraints and costs. Without limits on control slopes, the image of a trajectory that solves the collocated problem solves it on the same mesh, at the same cost. Every trajectory of least cost is what solve shows with some solver that only returns global minimisers, so a best trajectory and its image are both shown: optimality does not determine the result. The same holds for mpopt_adaptive with free widths, if the limits on scaled mid-point defects are preserved too; trajectory and image come with the same widths. The image of what mpopt_h_adaptive shows has least cost for the stored widths, as what it shows has. For a convex problem with fixed times and a running cost strict in the controls the shown controls are their own image at every node of positive weight, with any solver that finds local minimisers, whatever the guesses and scales.", "quantifier": "all problems, affine symmetries, meshes, widths, solvers", "why_tests_cant": "tests run one solver from one guess; that another optimal solver shows another trajectory, or that all show the same symmetric one, is about all solvers", "anchors": ["mpopt/mpopt.py:mpopt.get_nlp_constraints_for_dynamics", "mpopt/mpopt.py:mpopt.get_nlp_constraints_for_path_contraints", "mpopt/mpopt.py:mpopt.get_nlp_constraints_for_terminal_contraints", "mpopt/mpopt.py:mpopt.get_event_constraints", "mpopt/mpopt.py:mpopt.create_nlp", "mpopt/mpopt.py:mpopt.solve", "mpopt/mpopt.py:mpopt_adaptive.solve", "mpopt/mpopt.py:solve"]}
{"id": "C116", "title": "Planning again at the start of the last phase", "statement": "Take a problem with several phases, one of which is continued by no other. Its part of a trajectory that solves the collocated problem solves the one-phase problem that is left when this phase begins in the shown state at the shown time, on the same mesh. Conversely a plan for what is left may replace that phase, provided it begins with the control that was in use, and the cost changes by the difference of the two costs of the phase. So the principle of optimality holds among the plans that begin with that control: the last phase of a trajectory of least cost has least cost. For solve: planning again with an optimal solver never costs more, and costs less only if the new plan begins with another control, since links carry controls as well as states. That does happen: with one LGR segment of order 2 after a phase of waiting the whole plan arrives at 1/2 at most, the new plan at 1. All this holds for mpopt_adaptive too, where the widths of the segments are planned as well and the limits on widths and mid-point defects are those of the phase. After mpopt_h_adaptive the same comparison holds for solve with the widths that were stored for the phase.", "quantifier": "all problems, phases that no other continues, LGR and other meshes, default or requested widths or (mpopt_adaptive) free widths, solvers that return global minimisers", "why_tests_cant": "tests solve whole problems only, and compare with no plan made on the way; optimality is against all plans", "anchors": ["mpopt/mpopt.py:mpopt.get_event_constraints", "mpopt/mpopt.py:mpopt.get_nlp_constraints_for_dynamics", "mpopt/mpopt.py:mpopt.get_nlp_variables", "mpopt/mpopt.py:mpopt.create_nlp", "mpopt/mpopt.py:mpopt.solve", "mpopt/mpopt.py:mpopt_adaptive.solve", "mpopt/mpopt.py:solve"]}
