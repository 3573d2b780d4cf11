{"id": "C01", "title": "Created elements read back as created", "statement": "Right after Point::create or Length::create, get_value on the returned handle gives exactly the coordinates or length passed in; right after Line::create or Circle::create, get_value gives the line or circle assembled from the current values of the points and length it was built from.", "quantifier": "every reachable system, every argument value, every choice of existing points/lengths", "why_tests_cant": "Needs every prior history: the handle is an index into flat arrays whose offsets depend on everything created before.", "anchors": ["fiksi/src/elements/mod.rs:Point::create,Length::create,Line::create,Circle::create,get_value", "fiksi/src/lib.rs:System::add_element"]}
{"id": "C02", "title": "Existing handles keep their meaning", "statement": "Creating further elements or constraints, fixing, unfixing and updating other parameters never changes the value or kind seen through an already issued element handle, nor the residual kind/parameters seen through an issued constraint handle.", "quantifier": "every reachable system, every existing handle, every later sequence of creations, fix/unfix and constraint parameter updates", "why_tests_cant": "A frame property over unbounded later histories.", "anchors": ["fiksi/src/lib.rs:System::add_element,System::add_constraint", "fiksi/src/elements/mod.rs", "fiksi/src/constraints/mod.rs"]}
{"id": "C03", "title": "Element enumeration is complete and ordered", "statement": "get_element_handles yields exactly one handle per created element, in creation order, each equal to the handle returned at creation and of the right kind.", "quantifier": "every sequence of API calls on one system", "why_tests_cant": "Must hold after any interleaving of creations of the four kinds.", "anchors": ["fiksi/src/lib.rs:System::get_element_handles", "fiksi/src/elements/mod.rs:AnyElementHandle::from_ids_and_tag"]}
{"id": "C04", "title": "Constraint enumeration is complete and ordered", "statement": "get_constraint_handles yields exactly one handle per created constraint, in creation order, each equal to the handle returned at creation and of the right kind.", "quantifier": "every sequence of API calls on one system", "why_tests_cant": "Must hold after any interleaving of creations of the eleven kinds.", "anchors": ["fiksi/src/lib.rs:System::get_constraint_handles", "fiksi/src/constraints/mod.rs:AnyConstraintHandle::from_ids_and_tag"]}
{"id": "C05", "title": "No API history panics", "statement": "As long as only handles issued by the system itself are used, no sequence of creations, fixes, unfixes, updates, value reads and residual reads ever hits an out-of-bounds index, an `unreachable!`, or a failed assertion.", "quantifier": "every finite sequence of API calls whose handle arguments were issued earlier by the same system with the matching type", "why_tests_cant": "The space of call sequences is infinite; a panic may need a particular prior sequence.", "anchors": ["fiksi/src/lib.rs:System", "fiksi/src/elements/mod.rs", "fiksi/src/constraints/mod.rs", "fiksi/src/graph.rs:IncrementalGraph::add_constraint"]}
{"id": "C06", "title": "Reads through a foreign handle are rejected", "statement": "get_value and calculate_residual, called with a handle whose system is not the given system, always panic instead of returning a value of the wrong system. The writing operations (fix, unfix, update_value, update_parameter, and every create taking handles) give the same protection.", "quantifier": "every pair of distinct systems and every handle of one used on the other", "why_tests_cant": "Needs all pairs of systems with all shapes; a wrong index often happens to be in range.", "anchors": ["fiksi/src/elements/mod.rs:get_value,fix,unfix,update_value", "fiksi/src/constraints/mod.rs:calculate_residual,update_parameter"]}
{"id": "C07", "title": "Updating a value changes just that element", "statement": "update_value on a point or length makes get_value of that element return the new value, changes lines and circles built on it accordingly, and leaves every other point and length, the fixed set, all constraints and parameters as they were.", "quantifier": "every reachable system, every handle, every new value", "why_tests_cant": "Aliasing between flat variable slots of different elements has to be excluded for every layout.", "anchors": ["fiksi/src/elements/mod.rs:update_value"]}
{"id": "C08", "title": "Updating a parameter changes just that constraint", "statement": "update_parameter on a distance or angle constraint makes later residuals use the new parameter; every other constraint's kind, elements and parameter, and every element value, are unchanged.", "quantifier": "every reachable system, every constraint handle of the four parametric kinds, every new parameter", "why_tests_cant": "Needs every placement of the constraint among others.", "anchors": ["fiksi/src/constraints/mod.rs:update_parameter"]}
{"id": "C09", "title": "Fixing and unfixing are set operations on the element's own degrees of freedom", "statement": "fix then makes exactly the degrees of freedom of the element (for a line: of its two points, for a circle: of its centre and radius) fixed in addition to those already fixed; unfix frees exactly those; both are idempotent; fixing two elements commutes; unfixing a line also frees a shared endpoint that another fixed line uses.", "quantifier": "every reachable system, every pair of elements, every interleaving", "why_tests_cant": "Shared points make the effect of fix/unfix on compounds overlap; all sharing patterns are needed.", "anchors": ["fiksi/src/elements/mod.rs:fix,unfix"]}
{"id": "C10", "title": "Handles are unique identities", "statement": "Two element handles (or two constraint handles) compare equal exactly when they were issued by the same system for the same element; as_id is injective; handles of different systems never collide (as long as fewer than 2^32 systems were created).", "quantifier": "all pairs of handles, all histories creating up to 2^32 systems", "why_tests_cant": "Quantifies over all pairs and an atomic counter that wraps only after 2^32 systems.", "anchors": ["fiksi/src/elements/mod.rs:AnyElementHandle::as_id", "fiksi/src/lib.rs:System::new", "fiksi/src/constraints/mod.rs"]}
{"id": "C11", "title": "Typed and untyped handles convert losslessly", "statement": "as_any_element followed by as_tagged_element returns the original typed handle with its kind; likewise for constraints; an untyped handle read gives the same value or residual as the typed one (for residuals: coincidence as a norm, all others signed).", "quantifier": "every handle of every kind in every reachable system", "why_tests_cant": "15 kinds times all states; a single wrong tag only shows for one kind.", "anchors": ["fiksi/src/elements/mod.rs:as_any_element,as_tagged_element", "fiksi/src/constraints/mod.rs:as_any_constraint,as_tagged_constraint"]}
{"id": "C12", "title": "A zero residual means the geometric relation holds", "statement": "For each of the eleven constraints the reported residual is zero exactly when the stated geometric relation holds between the current element values (e.g. distance equals the parameter, the point lies on the line, the lines are parallel).", "quantifier": "all real coordinates, all parameters (with the degenerate configurations listed explicitly)", "why_tests_cant": "An equivalence over a continuum of configurations, including degenerate ones.", "anchors": ["fiksi/src/constraints/expressions.rs", "fiksi/src/constraints/mod.rs:calculate_residual"]}
{"id": "C13", "title": "Gradients are the true partial derivatives", "statement": "For every expression, every entry of the gradient written by the analytic gradient code is the partial derivative of that expression's residual with respect to that variable, wherever the residual is differentiable.", "quantifier": "all eleven constraint kinds, all variables of each, all real coordinates outside the listed singular set", "why_tests_cant": "Derivatives over a continuum; finite-difference tests only sample and only approximately.", "anchors": ["fiksi/src/constraints/expressions.rs:compute_residual_and_gradient"]}
{"id": "C14", "title": "Constraints do not depend on the coordinate frame", "statement": "Translating and rotating all points of a configuration leaves every residual unchanged.", "quantifier": "all real configurations, all rotation angles and translations, all eleven kinds", "why_tests_cant": "Invariance over a continuum of motions.", "anchors": ["fiksi/src/constraints/expressions.rs", "fiksi/src/constraints/expressions.rs:Pose2D"]}
{"id": "C15", "title": "Rescaling for the solver preserves the problem", "statement": "Dividing all variables by the system scale and transforming the expressions gives residuals that are zero exactly when the original ones are: each transformed residual equals the original one times a fixed positive power of the scale.", "quantifier": "all configurations, all positive scales, all kinds", "why_tests_cant": "Universally quantified over reals; a wrong exponent only shows for scale different from 1.", "anchors": ["fiksi/src/constraints/expressions.rs:transform", "fiksi/src/assemble/mod.rs:calculate_system_scale,solve"]}
{"id": "C16", "title": "Angle constraints are satisfiable exactly in the principal range", "statement": "An angle residual plus its parameter always lies in [-pi, pi]; so an angle constraint with a parameter outside that range is reported unsatisfied in every configuration, even one that realises the same geometric angle modulo a full turn.", "quantifier": "all real configurations and parameters, both angle kinds", "why_tests_cant": "Requires all configurations to show unsatisfiability.", "anchors": ["fiksi/src/constraints/expressions.rs:PointPointPointAngle,LineLineAngle"]}
{"id": "C17", "title": "Connected components partition the constrained elements", "statement": "After any sequence of creations, two elements that are linked by a chain of constraints are in the same component, elements of different components are never linked, and each constraint is in exactly one component: the component that contains all its elements.", "quantifier": "every sequence of element and constraint creations", "why_tests_cant": "Component merging bugs need a specific merge order; orders are unbounded.", "anchors": ["fiksi/src/graph.rs:IncrementalGraph::add_constraint,merge_connected_components"]}
{"id": "C18", "title": "The equation graph mirrors the constraints", "statement": "The variables listed for each expression are exactly those its residual depends on, and the expressions listed for each variable are exactly those using it, in creation order.", "quantifier": "every reachable system", "why_tests_cant": "A two-sided index kept in step over unbounded histories.", "anchors": ["fiksi/src/analyze/graph/equations.rs:ExpressionGraph::insert_variables,insert_expression", "fiksi/src/lib.rs:System::add_constraint"]}
{"id": "C19", "title": "The equation-variable matching is a maximum matching", "statement": "The matching used by the SinglePass decomposer pairs each equation with at most one of its own free variables and each variable with at most one equation, and no larger matching exists.", "quantifier": "all bipartite graphs (any number of equations and variables, any mask of fixed variables)", "why_tests_cant": "Maximality is a statement about every other matching of every graph.", "anchors": ["fiksi/src/analyze/graph/equations.rs:MaskedExpressionGraph::find_maximum_matching"]}
{"id": "C20", "title": "Strongly connected blocks are exact and in solving order", "statement": "The blocks given to the SinglePass decomposer are exactly the strongly connected components of the matched equation graph (each matched equation in exactly one block), and every block comes after all blocks whose variables it depends on.", "quantifier": "all directed graphs", "why_tests_cant": "Exactness and order over all graphs; the algorithm reuses one number range for two purposes.", "anchors": ["fiksi/src/analyze/graph/equations.rs:tarjan_pearce,find_strongly_connected_expressions"]}
{"id": "C21", "title": "SinglePass plans never fight over a variable", "statement": "In a SinglePass plan each equation is solved at most once, the free variables of different steps are disjoint, no fixed variable is ever free, and within a step there are at least as many free variables as equations.", "quantifier": "every system and set of fixed variables", "why_tests_cant": "Needs all graphs.", "anchors": ["fiksi/src/assemble/mod.rs:solve", "fiksi/src/analyze/graph/equations.rs:find_strongly_connected_expressions"]}
{"id": "C22", "title": "Every constraint is taken into account by every decomposer", "statement": "Whatever decomposer is chosen, every constraint of the system takes part in at least one numerical solve.", "quantifier": "every system, each decomposer", "why_tests_cant": "A dropped constraint needs a particular graph shape to show.", "anchors": ["fiksi/src/assemble/mod.rs:solve", "fiksi/src/graph.rs", "fiksi/src/analyze/graph/equations.rs"]}
{"id": "C23", "title": "Solving never moves fixed elements", "statement": "After solve, every degree of freedom that was fixed has exactly the same value as before.", "quantifier": "every reachable system, every fixed set, every optimizer, perturbation setting and decomposer, whatever the numerical optimizer returns", "why_tests_cant": "Must hold for every outcome of the numerics.", "anchors": ["fiksi/src/assemble/mod.rs:solve"]}
{"id": "C24", "title": "Solving never moves unconstrained elements", "statement": "After solve, a point or length that is not used by any constraint has exactly its previous value.", "quantifier": "every reachable system, every option, whatever the numerical optimizer returns", "why_tests_cant": "Must hold for every outcome of the numerics and every component layout.", "anchors": ["fiksi/src/assemble/mod.rs:solve", "fiksi/src/graph.rs"]}
{"id": "C25", "title": "Solving only changes values", "statement": "solve leaves the elements, constraints, their parameters, the fixed set and all handles as they were: only coordinate and length values change.", "quantifier": "every reachable system, every option, whatever the numerical optimizer returns", "why_tests_cant": "Whole-state frame condition.", "anchors": ["fiksi/src/assemble/mod.rs:solve"]}
{"id": "C26", "title": "Levenberg-Marquardt never makes things worse", "statement": "The sum of squared residuals at the point where the Levenberg-Marquardt optimizer stops is at most that at its start, it decreases strictly with each accepted step, and at most 100 steps are accepted.", "quantifier": "every problem (residuals and Jacobian as arbitrary functions), every start, every outcome of the linear solver", "why_tests_cant": "Must hold for every problem and trajectory.", "anchors": ["fiksi/src/solve/lm.rs:levenberg_marquardt"]}
{"id": "C27", "title": "L-BFGS uses the most recent corrections, newest first", "statement": "In step k the L-BFGS direction is the two-loop recursion over the min(k,5) most recent corrections.", "quantifier": "every history length k", "why_tests_cant": "Ring-buffer index arithmetic over all k.", "anchors": ["fiksi/src/solve/lbfgs.rs:lbfgs"]}
{"id": "C28", "title": "The perturbation generator is a full-period generator in [0,1]", "statement": "The random generator visits every one of the 2^32 states exactly once per period, every output is in [0,1], and equal seeds give equal sequences; so solving is a deterministic function of the system state and options.", "quantifier": "every seed, every number of draws", "why_tests_cant": "2^32 states, unbounded draws.", "anchors": ["fiksi/src/rand.rs:Rng"]}
{"id": "C29", "title": "Dense and sparse Jacobians agree", "statement": "For every list of expressions and set of free variables, the dense and the sparse Jacobian assembly describe the same matrix: entry (e,v) is the derivative of expression e with respect to free variable v, zero for variables it does not use.", "quantifier": "every list of expressions, every free/fixed split, every assignment", "why_tests_cant": "Needs all aliasing patterns between the arguments of one constraint.", "anchors": ["fiksi/src/subsystem.rs", "fiksi/src/constraints/expressions.rs:calculate_residual_and_gradient", "fiksi/src/assemble/mod.rs:DenseColMat"]}
{"id": "C30", "title": "Overconstraint analysis finds exactly the redundant constraints", "statement": "With exact arithmetic and zero tolerance, analyze flags an equation exactly when its gradient row is a linear combination of the rows before it, and the number of unflagged equations is the rank of the Jacobian.", "quantifier": "all matrices of all shapes", "why_tests_cant": "Linear dependence over all real matrices; wide, square and tall shapes behave differently.", "anchors": ["fiksi/src/analyze/numerical/mod.rs:incremental_gauss_jordan_elimination,find_overconstraints"]}
{"id": "C31", "title": "Triplets to sparse columns keeps the matrix", "statement": "Converting a triplet matrix gives a well-formed sparse column matrix (sorted, no duplicates, in-range) of the same shape whose entries are the sums of the triplets at that position.", "quantifier": "all triplet lists, any order, any duplicates, any outcome of the unstable sort", "why_tests_cant": "All multisets of coordinates.", "anchors": ["solvi/src/sparse_col_mat.rs:SparseColMat::from_triplet_mat", "solvi/src/triplet_mat.rs"]}
{"id": "C32", "title": "Format checking accepts exactly well-formed structures", "statement": "try_from_data returns Ok exactly when the data is a well-formed sparse column structure, never panics, and every structure built by the library's own constructors would be accepted.", "quantifier": "all index arrays", "why_tests_cant": "All arrays, including adversarial pointers.", "anchors": ["solvi/src/sparse_col_mat.rs:SparseColMatStructure::try_from_data,empty,identity"]}
{"id": "C33", "title": "Transpose is the mathematical transpose", "statement": "transpose of a well-formed sparse matrix is well formed, entry (j,i) equals the original entry (i,j), and transposing twice gives back the identical representation.", "quantifier": "all well-formed sparse matrices", "why_tests_cant": "All sparsity patterns.", "anchors": ["solvi/src/sparse_col_mat.rs:transpose,transpose_with_values"]}
{"id": "C34", "title": "Column permutation permutes structure and values", "statement": "permute_columns gives a well-formed matrix whose column j is column perm[j] of the original, with both row indices and values.", "quantifier": "all well-formed sparse matrices and permutations", "why_tests_cant": "A value-copying bug does not show for structures, only for values with two or more columns.", "anchors": ["solvi/src/sparse_col_mat.rs:permute_columns,permute_columns_with_values"]}
{"id": "C35", "title": "In-place permutation equals the gather", "statement": "Applying the swap sequence built from a permutation p to any slice a of sufficient length yields a[p[i]] at each i < n and leaves the rest alone, using fewer than n swaps (for n>0).", "quantifier": "all permutations of all sizes, all slices", "why_tests_cant": "n! permutations for every n.", "anchors": ["solvi/src/permutation.rs:PermutationSequence"]}
{"id": "C36", "title": "Back substitution solves the triangular system", "statement": "If solve_upper_triangular_mut returns true, the vector left in b is the solution of the upper-triangular part of the matrix; it returns false exactly when some diagonal entry is zero; lower-triangular values are ignored.", "quantifier": "all square sparse matrices and right-hand sides over a field", "why_tests_cant": "All matrices and sparsity patterns, including stored lower-triangular entries.", "anchors": ["solvi/src/sparse_col_mat.rs:solve_upper_triangular_mut"]}
{"id": "C37", "title": "Post-order lists every node once, children first", "statement": "post_order of any rooted forest is a permutation of its nodes in which every node comes after all its descendants and every subtree is contiguous.", "quantifier": "all parent arrays describing forests", "why_tests_cant": "All forests of all sizes.", "anchors": ["solvi/src/utils.rs:post_order"]}
{"id": "C38", "title": "Depth levels are distances to the root", "statement": "node_depth_levels gives each node its distance to its root, and the maximum of these.", "quantifier": "all parent arrays describing forests", "why_tests_cant": "All forests of all sizes, any node numbering.", "anchors": ["solvi/src/utils.rs:node_depth_levels"]}
{"id": "C39", "title": "The elimination tree is the elimination tree", "statement": "The parent of a column is the first later column that structurally depends on it in the Cholesky factor (the smallest larger column reachable through columns not larger than it); columns without such a column are roots.", "quantifier": "all sparsity structures, both the symmetric and the A^T A variant", "why_tests_cant": "A graph-theoretic characterisation over all structures, with path compression.", "anchors": ["solvi/src/decomposition/sparse/cholesky.rs:elimination_tree"]}
{"id": "C40", "title": "Householder reflections are orthogonal and annihilate", "statement": "The computed reflector maps the given vector to (norm,0,...,0) with norm its Euclidean length, and applying any computed reflector to any vector preserves Euclidean length.", "quantifier": "all real vectors of all lengths", "why_tests_cant": "Real identities over all vectors incl. zero tails and signs.", "anchors": ["solvi/src/decomposition/sparse/qr.rs:calculate_householder,apply_householder"]}
{"id": "C41", "title": "Sparse QR solves least squares", "statement": "For a matrix of full structural column rank with at least as many rows as columns, factorize/solve_mut never panics, and if it returns true the first n entries of b hold the minimiser of |Ax-b|.", "quantifier": "all well-formed sparse matrices and right-hand sides, exact arithmetic", "why_tests_cant": "All sparsity patterns; a missing fill entry silently loses values.", "anchors": ["solvi/src/decomposition/sparse/qr.rs:SymbolicQr,Qr", "solvi/src/decomposition/sparse/cholesky.rs:CholeskyStructure"]}
{"id": "C42", "title": "Row assignment for QR is a permutation with covered diagonal", "statement": "The computed row permutation maps rows one-to-one into 0..m+(number of columns without a row), and each column that gets a real row gets one with a structural entry on its elimination path.", "quantifier": "all sparsity structures", "why_tests_cant": "Queue merging along all elimination trees.", "anchors": ["solvi/src/decomposition/sparse/cholesky.rs:CholeskyStructure::build"]}
{"id": "C43", "title": "The recommended workspace always suffices", "statement": "Calling colamd with a buffer of the recommended length never fails for lack of workspace, and colamd_recommended fails only for negative input (on 64-bit).", "quantifier": "all non-negative i32 sizes", "why_tests_cant": "2^93 inputs.", "anchors": ["colamd_rs/src/colamd.rs:colamd_recommended,colamd"]}
{"id": "C44", "title": "Malformed column orderings inputs are errors, not panics", "statement": "colamd returns Err for every malformed input (bad start pointer, negative column lengths, row out of range, too small a buffer, negative number of rows or entries) instead of panicking, and the decoded error carries the offending values.", "quantifier": "all argument values with column_pointers of length ncols+1", "why_tests_cant": "All adversarial inputs.", "anchors": ["colamd_rs/src/status.rs:stats_to_result", "colamd_rs/src/lib.rs:colamd", "colamd_rs/src/colamd.rs:colamd,init_rows_cols"]}
{"id": "C45", "title": "Jumbled input is handled like sorted input", "statement": "For input with unsorted or duplicate row indices, the row form and the re-created column form describe the same sparsity pattern as the input, sorted and without duplicates.", "quantifier": "all column-pointer/row-index arrays that pass the checks", "why_tests_cant": "All orders and multiplicities.", "anchors": ["colamd_rs/src/colamd.rs:init_rows_cols"]}
{"id": "C46", "title": "Child ordering completes a permutation", "statement": "Given principal columns with disjoint order ranges of their thickness, order_children produces a permutation of the columns in which each absorbed column lies in its principal column's range.", "quantifier": "all absorption forests and principal orders", "why_tests_cant": "All forests.", "anchors": ["colamd_rs/src/colamd.rs:order_children"]}
{"id": "C47", "title": "symamd builds a matrix with the right pattern", "statement": "The matrix M that symamd orders has exactly two entries per row, one row for each distinct strictly lower entry, so that M^T M has exactly the off-diagonal pattern of A.", "quantifier": "all symmetric structures, including jumbled ones", "why_tests_cant": "All structures.", "anchors": ["colamd_rs/src/colamd.rs:symamd"]}
{"id": "C48", "title": "Cholesky counts match the predicted factor", "statement": "The row indices emitted for the factor R are, for every column, sorted, duplicate free, end with the diagonal, and the counts equal the number of indices. The reported row counts and column counts are the numbers of positions per row and per column that elimination fills.", "quantifier": "all sparsity structures", "why_tests_cant": "Skeleton/LCA counting over all elimination trees.", "anchors": ["solvi/src/decomposition/sparse/cholesky.rs:CholeskyCounts::build,CholeskyStructure::build"]}
{"id": "C49", "title": "Recursive assembly plans cover every constraint once", "statement": "In a RecursiveAssembly plan each constraint of the component is solved in exactly one step and each element is owned by exactly one step, for every iteration order of the hash sets.", "quantifier": "all graphs, all hash iteration orders", "why_tests_cant": "All orders and graphs.", "anchors": ["fiksi/src/analyze/graph/recursive_assembly.rs:decompose"]}
{"id": "C50", "title": "Poses are rigid motions", "statement": "Transforming points by a pose preserves all distances, the identity pose does nothing, and the chain-rule gradient of a pose-transformed point is the true derivative with respect to the pose variables.", "quantifier": "all real poses and points", "why_tests_cant": "Continuum.", "anchors": ["fiksi/src/constraints/expressions.rs:Pose2D"]}
{"id": "C51", "title": "The SVG shows every visible element once, points on top", "statement": "render_system emits exactly one shape per visible point, line and circle (none for lengths and hidden elements), lines and circles before points, and the automatic view box contains every drawn shape's bounding box.", "quantifier": "every system, every set of hidden elements", "why_tests_cant": "All systems.", "anchors": ["fiksi_svg/src/lib.rs:SystemRenderer::render_system"]}
{"id": "C52", "title": "Solving ends", "statement": "Levenberg-Marquardt returns after finitely many linear solves, for every problem and start: rejected steps multiply the damping, accepted steps cannot follow one another for ever, and an iteration limit bounds the rest. L-BFGS, whose line search bisects without a bound, returns as well.", "quantifier": "all problems and starting values", "why_tests_cant": "Non-termination shows up only for values (such as NaN) that tests rarely use; a test can only time out.", "anchors": ["fiksi/src/solve/lm.rs:levenberg_marquardt", "fiksi/src/solve/lbfgs.rs:lbfgs"]}
{"id": "C53", "title": "Solving never panics", "statement": "After every legal history, calling solve with any options returns: no out-of-bounds index, failed unwrap or unreachable! on the way from the constraint graph to the optimiser and back.", "quantifier": "every history, every option, every iteration order of the hash sets", "why_tests_cant": "Panics depend on the shape of the constraint graph and on iteration orders.", "anchors": ["fiksi/src/lib.rs:System::solve", "fiksi/src/assemble/mod.rs:solve", "fiksi/src/subsystem.rs", "fiksi/src/solve/lm.rs"]}
{"id": "C54", "title": "The line search leaves its buffers at the step it returns", "statement": "When the L-BFGS line search returns a step t, the trial variables, residuals, Jacobian and gradient buffers are exactly those of x + t\u00b7direction, and the reported objective value is the sum of squared residuals there; the optimiser continues from these buffers without re-evaluating.", "quantifier": "all problems, starting points, directions, buffer contents and numbers of rounds; every exit of the search", "why_tests_cant": "The search has many exits (accepted at once, in either secant step, after bisection, after 100 rounds); tests reach only a few of them.", "anchors": ["fiksi/src/solve/lbfgs.rs:481-506", "fiksi/src/solve/lbfgs.rs:421-460", "fiksi/src/solve/lbfgs.rs:145-192"]}
{"id": "C55", "title": "colamd returns a permutation of the columns", "statement": "For every sparse matrix with sorted columns, any options and a workspace of at least the required length, colamd returns Ok and leaves in p a permutation of the column numbers (followed by -1). No access on the way (scoring, pivot elimination, super-column detection, garbage collection) leaves the workspace, and all loops end.", "quantifier": "all matrices with sorted columns whose workspace length fits an i32, all options, all workspaces of at least the required length", "why_tests_cant": "The workspace is overlaid with degree lists, hash buckets, tagged rows and compacted columns; which overlays meet depends on the elimination order, and garbage collection happens only on particular fill-in. The code uses unchecked pointers.", "anchors": ["colamd_rs/src/lib.rs:colamd", "colamd_rs/src/colamd.rs:init_scoring", "colamd_rs/src/colamd.rs:find_ordering", "colamd_rs/src/colamd.rs:detect_super_cols", "colamd_rs/src/colamd.rs:garbage_collection", "colamd_rs/src/colamd.rs:order_children"]}
{"id": "C56", "title": "symamd returns a permutation", "statement": "For every square matrix that passes the documented checks (sorted or not), with any options, symamd returns Ok with a permutation of the column numbers; no access leaves the buffers.", "quantifier": "all square matrices with fewer than 2^27 columns and entries, any order within columns, any options", "why_tests_cant": "symamd runs the colamd elimination on a matrix it builds; which overlays of the workspace meet depends on the input.", "anchors": ["colamd_rs/src/lib.rs:symamd", "colamd_rs/src/colamd.rs:symamd"]}
{"id": "C57", "title": "SymbolicQr::build panics only as documented", "statement": "SymbolicQr::build of a structure of full structural column rank returns, with a permutation of the columns, unless the dimensions or the number of entries exceed i32::MAX (the documented panic).", "quantifier": "all structures, both orderings", "why_tests_cant": "The failing sizes need gigabytes; the ordering routine has its own arithmetic.", "anchors": ["solvi/src/decomposition/sparse/qr.rs:105-187", "colamd_rs/src/colamd.rs:475-490"]}
{"id": "C58", "title": "The line search returns a step that meets the Wolfe conditions", "statement": "For every problem whose residuals are differentiable along the search direction and whose objective decreases in that direction, the L-BFGS line search returns, and the step it returns meets the (approximate) Wolfe conditions it tests: sufficient decrease and a flatter slope.", "quantifier": "all problems, starting points and descent directions, all numbers of bisections", "why_tests_cant": "A test sees one direction; whether the bisection ends and whether the 100 rounds suffice depends on the shape of the objective along the line.", "anchors": ["fiksi/src/solve/lbfgs.rs:218-506"]}
{"id": "C59", "title": "The rows and columns that colamd and symamd ignore are the documented ones", "statement": "colamd removes before ordering exactly the rows with more than max(16, dense_row_control*sqrt(n_col)) entries and the columns with more than max(16, dense_column_control*sqrt(min(n_row,n_col))) entries, places those columns last, and reports the numbers of ignored (dense or empty) rows and columns. symamd does the same with the number of neighbours of a column.", "quantifier": "all matrices with sorted columns whose workspace fits an i32, all options", "why_tests_cant": "Dense rows and columns need more than 16 entries and interact: removing a dense column changes the number of entries of its rows; the documented thresholds are computed in floating point and cast.", "anchors": ["colamd_rs/src/options.rs:8-22", "colamd_rs/src/status.rs:31-46", "colamd_rs/src/colamd.rs:656-809"]}
{"id": "C60", "title": "The result of solve does not depend on the unit of length", "statement": "If every coordinate, length and prescribed distance a client passes is multiplied by the same positive factor, the client gets the same handles, solve fails with the same panic or returns in both cases, and afterwards every coordinate and length is multiplied by that factor. (In exact arithmetic; for factors that are powers of two also in binary64, to the last bit, unless the exponent overflows or underflows.)", "quantifier": "all API histories, all positive factors, all options, all optimisers and hash orders", "why_tests_cant": "A test compares one figure at a few magnitudes up to a tolerance; the claim is about every figure and every factor and that the perturbation, the stopping rules and the decompositions see the same numbers.", "anchors": ["fiksi/src/assemble/mod.rs:22-80", "fiksi/src/tests/magnitude.rs"]}
{"id": "C61", "title": "Solving an already satisfied figure leaves it alone", "statement": "If every constraint reads a residual of zero, solve leaves every point and length exactly where it is, with every decomposer and optimiser. (In exact arithmetic; the figure is not entirely zero.)", "quantifier": "all API histories whose constraints are satisfied, all decomposers, both optimisers, all hash orders", "why_tests_cant": "Tests start from figures that need solving; that nothing moves at a solution involves the scaling, the perturbation, the stopping rules, the write-back and the poses of clusters for every figure.", "anchors": ["fiksi/src/assemble/mod.rs:46-280", "fiksi/src/solve/lm.rs", "fiksi/src/solve/lbfgs.rs"]}
{"id": "C62", "title": "Successful solving satisfies the constraints", "statement": "If every call of the optimiser during solve ends where the residuals of its problem are at most eps, then afterwards every constraint of the system has a residual of at most eps (in the unit of length used for solving); if they end at zero, every non-degenerate constraint holds in the plane. What one call has solved is not undone by a later one.", "quantifier": "all API histories, all optimisers that succeed, all options, all hash orders", "why_tests_cant": "The documentation of System::solve promises it; it depends on the components covering all constraints, on the blocks being solved in an order in which later blocks do not move what earlier ones settled, and on the scaled and unscaled copies of every variable staying in step.", "anchors": ["fiksi/src/lib.rs:460-470", "fiksi/src/assemble/mod.rs:46-280"]}
{"id": "C63", "title": "The problems of recursive assembly have true Jacobians", "statement": "For every step of a recursive assembly plan and all values of its variables (poses of the clusters and coordinates), the residuals computed together with the Jacobian are those computed alone, every residual row is written whatever the buffer held before, and the entries of the Jacobian are the partial derivatives of the residuals.", "quantifier": "all systems, all steps, all values at which the constraint expressions are differentiable, all contents of the buffers", "why_tests_cant": "Pose equations and constraint equations share variables and rows in many combinations; finite differences only sample.", "anchors": ["fiksi/src/assemble/mod.rs:282-725"]}
{"id": "C64", "title": "Assembly steps solve their constraints and move clusters as rigid bodies", "statement": "With RecursiveAssembly, if the optimiser ends a step where the residuals of its problem are at most eps, then afterwards the equations of the constraints of that step hold up to eps, all points that go along with a cluster have moved by one rotation and translation (up to eps in each coordinate), and points and lengths outside the step and its clusters have not moved. In particular, exact solutions keep all distances within a cluster.", "quantifier": "all API histories, all components and plans, all steps, all positions before the step, all optimisers", "why_tests_cant": "Which points are variables of the problem, which are carried along with a pose and which stay depends on the history of clusters, a transitive closure over frontiers and three maps of the plan; a point moved twice or not at all shows only in figures with several overlapping clusters.", "anchors": ["fiksi/src/assemble/mod.rs:212-280", "fiksi/src/assemble/mod.rs:317-660", "fiksi/src/analyze/graph/recursive_assembly.rs:164-483"]}
{"id": "C65", "title": "dense_bfs returns a smallest dense subgraph", "statement": "The search for a subgraph ends without panic. What it returns is a connected, unblocked set of at least two of the given elements that meets its condition on degrees of freedom minus valencies, and no smaller such set exists; it returns None exactly if there is none. (Documented: the condition is 'less than D + 1'.)", "quantifier": "all graphs in which edges join at least two different elements, all sets of blocked subgraphs, all hash iteration orders", "why_tests_cant": "The number of connected subgraphs is exponential; whether a running count of degrees of freedom and an incrementally maintained frontier are right for every order of growth cannot be sampled. Tests only look at a few decompositions.", "anchors": ["fiksi/src/analyze/graph/recursive_assembly.rs:485-645"]}
{"id": "C66", "title": "Levenberg-Marquardt is the textbook method and stops for a known reason", "statement": "The Levenberg-Marquardt optimiser takes exactly the damped Gauss-Newton steps (J^T J + lambda I) delta = -J^T r, with lambda 1/2 at first, doubled after a rejected step and divided by 8 after an accepted one. When it returns, the sum of squared residuals is below 1e-8, or the next step would be shorter than 1e-6, or the last step decreased the sum by at most a millionth, or 100 steps were taken that each decreased it by more. It never leaves a point at which the gradient of the sum of squares vanishes.", "quantifier": "all problems, starts, linear systems and dampings; exact arithmetic", "why_tests_cant": "The sequence of dampings and steps and the reason for stopping are not visible to a caller; a test sees one result for one start.", "anchors": ["fiksi/src/solve/lm.rs:levenberg_marquardt", "fiksi/src/assemble/mod.rs:solve"]}
{"id": "C67", "title": "L-BFGS is a method of lines and corrections and stops for a known reason", "statement": "The L-BFGS optimiser takes steps along -H g, where g is the gradient and H the inverse Hessian approximation made by the textbook BFGS update from the corrections that count, with lengths found by the line search of Hager and Zhang. When it returns, the sum of squared residuals was below 1e-4 at the start and nothing was done, or it is below 1e-6, or the last step changed it by less than 1e-10, or 100 steps were taken.", "quantifier": "all problems that compute residuals and gradients, all starts; exact arithmetic", "why_tests_cant": "The code keeps corrections in a ring of buffers, applies them by a two-loop recursion and shares buffers between the line search and the iteration; none of this is visible in a result.", "anchors": ["fiksi/src/solve/lbfgs.rs"]}
{"id": "C68", "title": "L-BFGS does not make things worse", "statement": "When L-BFGS returns, the sum of squared residuals is not larger than at the start, and every direction it searches leads downwards.", "quantifier": "all problems, all starts; exact arithmetic", "why_tests_cant": "A bad figure after solve may be the fault of the start, of the constraints or of the optimiser; tests start near solutions.", "anchors": ["fiksi/src/solve/lbfgs.rs"]}
{"id": "C69", "title": "Coincidences are solved from any start", "statement": "If all constraints of a system are coincidences of points, and the fixed points leave a way to place the others, then solve with Decomposer::None and Levenberg-Marquardt returns and all coincidences hold, up to a tolerance that is a small fraction of the size of the figure, wherever the points were before.", "quantifier": "all histories (fewer than 500 calls), all positions of points, all patterns of coincidences (chains, trees, loops, repeated ones) and of fixed points; exact arithmetic", "why_tests_cant": "That an iterative optimiser arrives at a solution and not only at a smaller error is seen in tests for single figures; whether its stopping rules may end it too early depends on the worst-conditioned pattern of constraints of a given size.", "anchors": ["fiksi/src/solve/lm.rs:levenberg_marquardt", "fiksi/src/assemble/mod.rs:solve", "fiksi/src/constraints/mod.rs"]}
{"id": "C70", "title": "The residual that the API reports is right up to rounding", "statement": "calculate_residual of a constraint differs from the deviation of the figure in the exact plane (distance minus wanted distance, turn minus wanted angle, signed distance from the line, ...) by at most a small multiple of the unit roundoff times the size of the quantities compared.", "quantifier": "all histories, all constraint kinds, all coordinates and parameters that are numbers of the format, all arithmetics with correctly rounded basic operations", "why_tests_cant": "Cancellation shows only for particular coordinates, such as nearly equal or very large ones; tests use small round numbers, for which most operations are exact.", "anchors": ["fiksi/src/constraints/expressions.rs", "fiksi/src/constraints/mod.rs:calculate_residual", "fiksi/src/lib.rs"]}
{"id": "C71", "title": "Contracting a cluster keeps the count of freedoms and constraints", "statement": "When recursive assembly replaces the core of a solved cluster by one vertex, the elements outside keep their degrees of freedom, each element on the frontier is tied to the new vertex by as many equations as it was tied to the core, all other constraints stay, and every set that contains the cluster counts as many degrees of freedom as before with the cluster counted as a rigid body.", "quantifier": "all constraint graphs, all clusters, all orders of iteration", "why_tests_cant": "A wrong count shows only some rounds later, as another plan or a panic; plans differ from run to run because hash sets are iterated over.", "anchors": ["fiksi/src/analyze/graph/recursive_assembly.rs:decompose", "fiksi/src/graph.rs:merge_elements"]}
{"id": "C72", "title": "A figure that satisfies its constraints stays where it is", "statement": "If all constraints hold, or are missed by less than a ten-millionth of the size of the figure, then solve without perturbation returns and leaves the figure where it is: every coordinate and length changes by a few units in the last place at most.", "quantifier": "all histories (fewer than 131072 calls), all positions, all hash orders, both optimisers, all decomposers, all arithmetics with correctly rounded operations", "why_tests_cant": "Whether rounding errors of a large figure push the computed residuals over the threshold at which an optimiser starts to move things depends on the number of constraints and the ratio of coordinates; tests have a handful of round numbers.", "anchors": ["fiksi/src/assemble/mod.rs:solve", "fiksi/src/assemble/mod.rs:calculate_system_scale", "fiksi/src/solve/lm.rs", "fiksi/src/solve/lbfgs.rs", "fiksi/src/utils.rs"]}
{"id": "C73", "title": "Parts of a figure that no constraint links are solved independently", "statement": "If no constraint has arguments both inside and outside a set of elements, then moving points or lengths outside the set, or changing parameters of constraints outside it, does not change what solve makes of the elements inside.", "quantifier": "all histories, all such sets, all sequences of updates outside, all options, optimisers, hash orders and arithmetics", "why_tests_cant": "The parts share the scratch vectors, the random generator and the unit of length; a leak between parts shows only for particular combinations of figures.", "anchors": ["fiksi/src/assemble/mod.rs:solve", "fiksi/src/assemble/mod.rs:calculate_system_scale", "fiksi/src/graph.rs"]}
{"id": "C74", "title": "Turning a figure first and solving then gives the turned result", "statement": "A client that moves all points of a figure by a rigid motion, turning or mirroring included, and then solves gets the moved result of solving the figure as it was, as long as the constraints do not refer to the orientation of the plane. No direction of the plane is preferred.", "quantifier": "all histories, all angles, mirrored or not, all constraint kinds that do not refer to the orientation; both optimisers without decomposition and perturbation; exact arithmetic", "why_tests_cant": "A test compares a few angles up to a tolerance; a preference for the axes, as in a damping term that is not invariant, shows as a slightly different result that still satisfies the constraints.", "anchors": ["fiksi/src/solve/lm.rs:levenberg_marquardt", "fiksi/src/assemble/mod.rs:solve", "fiksi/src/assemble/mod.rs:calculate_system_scale", "fiksi/src/constraints/expressions.rs"]}
{"id": "C75", "title": "The order in which elements and constraints are created does not matter", "statement": "Two clients that create the same figure, with elements and constraints in different orders and with the arguments of symmetric constraints exchanged, read the same values after solve.", "quantifier": "all pairs of histories, all permutations of elements and constraints, all constraint kinds; both optimisers without decomposition and perturbation; exact arithmetic", "why_tests_cant": "There are too many orders to try; the order decides the numbering of variables and equations, the column order of the factorisation and the bookkeeping of connected parts.", "anchors": ["fiksi/src/graph.rs:add_constraint", "fiksi/src/assemble/mod.rs:solve", "fiksi/src/solve/lm.rs", "fiksi/src/lib.rs"]}
{"id": "C76", "title": "Distances and points on circles are attained from any start", "statement": "A client that asks for distances between points, and for points to lie on circles, where the points concerned are not in the same place to begin with, gets them from solve: it returns, and each constraint holds up to a ten-thousandth of the size of the figure. It does not matter how far away the start is.", "quantifier": "all histories (fewer than 2^24 calls), all positions, all distances and radii that are not negative, any number of constraints, with and without perturbation, all hash orders; Levenberg-Marquardt without decomposition; exact arithmetic", "why_tests_cant": "How many rounds the optimiser takes, and whether it stops early, depends continuously on the start and on the weights; tests sample a few starts close to the solution.", "anchors": ["fiksi/src/solve/lm.rs:levenberg_marquardt", "fiksi/src/assemble/mod.rs:solve", "fiksi/src/constraints/expressions.rs"]}
{"id": "C77", "title": "Only the present figure matters, not how it came about", "statement": "Two clients whose calls have led to the same elements, values, constraints, parameters and fixed elements read the same residuals, get the same analysis and the same result from solve, however they got there: values overwritten, elements fixed and released, parameters changed, solve called in between, elements created between constraints or before them. The same holds after any further calls that both make.", "quantifier": "all pairs of legal histories with fewer than 2^30 calls each, in the same or in different systems; all optimisers, options and hash orders; every arithmetic, floating point included", "why_tests_cant": "The crate keeps derived state (components, incidence lists, the equation graph, fixed variables) that is updated call by call and never rebuilt; a test exercises a few histories, and stale derived state shows only in later solves.", "anchors": ["fiksi/src/graph.rs:add_constraint", "fiksi/src/graph.rs:add_element", "fiksi/src/lib.rs", "fiksi/src/analyze/graph/equations.rs", "fiksi/src/assemble/mod.rs:solve"]}
{"id": "C78", "title": "Sixteen-bit counts do not change what recursive assembly does", "statement": "Solving with recursive assembly gives the result that exact counting of degrees of freedom and valencies would give: the i16 counters never overflow (panic with overflow checks, wrap without).", "quantifier": "for all figures, optimisers, hash orders and options", "why_tests_cant": "The counts grow with the number of constraints between the same elements and with repeated contraction; a test only sees figures of the size its author thought of.", "anchors": ["fiksi/src/analyze/graph.rs:98-115", "fiksi/src/analyze/graph/recursive_assembly.rs:418-532", "fiksi/src/analyze/graph/recursive_assembly.rs:578-645"]}
{"id": "C79", "title": "symamd looks at the strictly lower part only", "statement": "Two square matrices with the same rows below the diagonal in every column get the same statistics and the same permutation from symamd: the diagonal, the entries above it, repetitions, and what the permutation slice held before the call make no difference.", "quantifier": "all pairs of square matrices that pass the checks, sorted or not, all options", "why_tests_cant": "The documentation promises that the upper part may be left out or be anything; a test compares two particular matrices.", "anchors": ["colamd_rs/src/lib.rs:symamd", "colamd_rs/src/colamd.rs:symamd"]}
{"id": "C80", "title": "The status says whether the columns were sorted", "statement": "When colamd or symamd returns Ok, the status is Ok exactly if every column lists its rows in increasing order without duplicates; otherwise it names the column and the row of the last entry out of order or repeated, and the number of such entries.", "quantifier": "all matrices that pass the checks, all options", "why_tests_cant": "All orders and multiplicities of entries; the statistics pass through a buffer that is shared by two functions.", "anchors": ["colamd_rs/src/status.rs:Status", "colamd_rs/src/colamd.rs:init_rows_cols", "colamd_rs/src/colamd.rs:symamd"]}
{"id": "C81", "title": "Solving does not make the figure worse", "statement": "After solve, the sum of the squares of the residuals of all constraints (lengths measured in the unit solve works in; plain residuals if all constraints have the same unit) is at most what it was before; and so is the sum over each part of the figure that is not linked to the rest.", "quantifier": "for all figures, values, options and hash orders, contradictory and over-determined figures included; whatever the linear solver computes", "why_tests_cant": "A test checks that figures with a solution are solved; whether a figure without one, or one on which the optimiser gives up, is at least not damaged depends on every accepted step and on what the decomposition leaves out.", "anchors": ["fiksi/src/assemble/mod.rs:solve", "fiksi/src/solve/lm.rs:levenberg_marquardt", "fiksi/src/constraints/mod.rs:calculate_residual"]}
{"id": "C82", "title": "Rounding errors of the least-squares solver are small in the data", "statement": "Factorising a matrix A with m rows and n columns and solving with it, in arithmetic whose operations have relative error at most u, does not panic. If solve reports success, the vector it returns is the one and only least-squares solution for some matrix A' and right-hand side b' near the given ones: each column of A' differs from that of A, and b' from b, by at most 2(24mn + 61n)u of its length. If solve reports a singular matrix, some A' that near has dependent columns. The sparsity pattern and the column ordering make no difference to the bound.", "quantifier": "all sparse matrices of full structural rank and all values, right-hand sides and orderings; every arithmetic with relative error at most u per operation (no overflow or underflow) and (24mn + 61n)u <= 1/2", "why_tests_cant": "Rounding errors depend on all values and accumulate over all reflectors; a test compares a few well-conditioned matrices with a tolerance.", "anchors": ["solvi/src/decomposition/sparse/qr.rs:calculate_householder,apply_householder,factorize,solve_mut", "solvi/src/sparse_col_mat.rs:solve_upper_triangular_mut"]}
{"id": "C83", "title": "A format error names the first defect", "statement": "When try_from_data returns an error, what it says is true of the data: the number, start and end of the pointers are reported as found and as expected; a pointer error names a column whose pointers decrease, and both pointers; an index error names the column, the position in the row indices (never 0 for an unordered index), the value there and the previous value or the number of rows it violates. All columns before the named one, and the named column before the named position, are in order.", "quantifier": "all row counts, column counts, row indices and pointers", "why_tests_cant": "A test compares three messages; a swapped pair of numbers or a position counted from the column start is right on small data.", "anchors": ["solvi/src/sparse_col_mat.rs:SparseFormatError,try_from_data"]}
{"id": "C84", "title": "The ordering starts with a column of least degree", "statement": "The first column of the permutation that colamd returns has the least initial score of all columns that are not ignored: the number of other columns that share a row with it, counted once per shared row, without ignored rows and dense columns, and at most n_col. For symamd with at least three columns this is a column with the fewest neighbours in the graph of the matrix, among the columns that have neighbours and are not dense.", "quantifier": "all matrices with sorted columns that pass the checks and have a column that is not ignored (symamd: unsorted ones too), all controls that are not negative, over the reals with truncating casts", "why_tests_cant": "The least score is found through linked lists by degree that are shared with hash buckets and a buffer that is compacted; a test shows one permutation, and a permutation that is merely valid makes the factors dense without failing any test.", "anchors": ["colamd_rs/src/colamd.rs:init_scoring,find_ordering"]}
{"id": "C85", "title": "Forests are ordered without fill", "statement": "If the columns that are not ignored form a forest (no cycle of columns in which neighbours share a row that is not ignored) and no two of them share two rows, every column has at most one neighbour after it in the permutation that colamd returns; symamd orders every forest in this way. So eliminating the columns in this order joins no two that were not neighbours: SymbolicQr::build with the default ordering gives R exactly the pattern of the upper triangle of the permuted A^T A (and the diagonal), if the columns of A form a forest, no two of them share two rows and none is dense.", "quantifier": "all matrices with sorted columns that pass the checks (symamd: unsorted ones too, at least three columns), all controls that are not negative, over the reals with truncating casts", "why_tests_cant": "The later pivots are chosen by approximate scores that are updated incrementally, with columns merged and the buffer compacted; a test can compare the fill of a few trees.", "anchors": ["colamd_rs/src/colamd.rs:init_scoring,find_ordering", "solvi/src/decomposition/sparse/qr.rs:SymbolicQr::build"]}
{"id": "C86", "title": "A part that is free to move keeps its centroid", "statement": "If the points of a set are not fixed and no constraint ties them to other elements (each constraint is about points of the set only, or about none of them), solve does not shift them as a whole: the sum of their coordinates, hence their centroid, is the same afterwards, whether or not the constraints can be met.", "quantifier": "all legal histories and all such sets of points, both optimisers, Decomposer::None without perturbation, exact arithmetic; histories in which no constraint joins two constrained parts", "why_tests_cant": "It depends on every derivative of every constraint adding up to zero over the points and on the optimiser moving along combinations of derivatives only; a test sees one figure, and a sketch that drifts a little at each solve passes all tests of residuals.", "anchors": ["fiksi/src/assemble/mod.rs:solve", "fiksi/src/constraints/expressions.rs", "fiksi/src/solve/lm.rs", "fiksi/src/solve/lbfgs.rs"]}
{"id": "C87", "title": "Solving a second time changes nothing", "statement": "After solve has returned a figure whose residuals are small in units of the figure's size (the sum of the squares is within the tolerance of the solver), calling solve again returns exactly the same values; so a client may call solve after every edit, or twice, without the figure drifting.", "quantifier": "all legal histories, all options of the first call; decomposers None and SinglePass and no perturbation in the second, both optimisers, exact arithmetic", "why_tests_cant": "The unit of length, the damping and the search state are set up anew by each call; a test that solves twice sees one figure, and whether the second call moves something depends on how the first one changed the size of the figure.", "anchors": ["fiksi/src/assemble/mod.rs:solve", "fiksi/src/solve/lm.rs", "fiksi/src/solve/lbfgs.rs"]}
{"id": "C88", "title": "Contradictory coincidences end in the best compromise", "statement": "If points are required to coincide in a way that the fixed points do not allow, solve does not fail or stop anywhere: it returns places for the points whose sum of squared distances, over all coincidences, is almost the least that is possible with the fixed points where they are, from every start. So an over-constrained sketch ends up between its contradictory requirements, and no better places exist.", "quantifier": "all legal histories of fewer than 500 calls with coincidences only, whether they can be met or not, Levenberg-Marquardt with the sparse QR of the crates, Decomposer::None, with and without perturbation, exact arithmetic; histories in which no constraint joins two constrained parts; all other places for the points", "why_tests_cant": "The least sum is over all places of all points; a test sees one contradictory sketch and cannot tell the least sum from a stop that came too early, as the method stops when a step decreases the sum by less than a millionth of it.", "anchors": ["fiksi/src/assemble/mod.rs:solve", "fiksi/src/solve/lm.rs:levenberg_marquardt", "fiksi/src/constraints/expressions.rs:VariableVariableEquality"]}
{"id": "C89", "title": "Points that shall coincide meet at their centroid", "statement": "If points that are not fixed are tied to each other by coincidences and to nothing else, solve brings every one of them to the centroid of the places they had before, up to the solver's tolerance for each link: no point is preferred, whatever the order of the calls and the shape of the links.", "quantifier": "all sets of points and all links between them that connect them, all starts, histories of fewer than 500 calls that made satisfiable coincidences only, no constraint joining two constrained parts; Decomposer::None, Levenberg-Marquardt, no perturbation, exact arithmetic", "why_tests_cant": "A test shows one pair of points; where more points meet depends on every step of the method, on the ordering of the unknowns and on the damping, and a solver that drags all points to the first one leaves the same residuals.", "anchors": ["fiksi/src/assemble/mod.rs:solve", "fiksi/src/solve/lm.rs:levenberg_marquardt", "fiksi/src/constraints/expressions.rs:VariableVariableEquality"]}
{"id": "C90", "title": "A symmetric figure stays symmetric", "statement": "If a turn about the origin or a mirroring in a line through it, together with a renumbering of the elements, leads from the figure to itself (values, fixed elements and constraints, up to the order of constraints and of the arguments of symmetric ones), then it leads from the result of solve to itself. In particular a point on the axis of a symmetric figure stays on the axis, and two elements that are each other's image end as each other's image.", "quantifier": "all legal histories in which no constraint joins two constrained parts, all such symmetries and renumberings, constraints that do not refer to the orientation of the plane; both optimisers (L-BFGS: constraints about distinct points), Decomposer::None, no perturbation, exact arithmetic", "why_tests_cant": "Symmetry can be lost by the order in which unknowns and equations are treated, by the pivoting and by the damping; a test shows one symmetric figure, with results that are symmetric up to rounding or by chance.", "anchors": ["fiksi/src/assemble/mod.rs:solve", "fiksi/src/constraints/expressions.rs", "fiksi/src/solve/lm.rs", "fiksi/src/solve/lbfgs.rs"]}
{"id": "C91", "title": "What shall coincide with a fixed point is drawn to it", "statement": "If points are linked to a fixed point by coincidences, directly or over any number of other points, solve leaves the fixed point where it is and brings every linked point to its place, up to the solver's tolerance for each link, wherever the points were before.", "quantifier": "all satisfiable coincidences and all chains and loops of them, all starts, histories of fewer than 500 calls that made coincidences only, no constraint joining two constrained parts; Decomposer::None, Levenberg-Marquardt, with and without perturbation, exact arithmetic", "why_tests_cant": "The number of links and the places are unbounded; a test shows one short chain, and a solver that moves the fixed point to the others satisfies the same residuals.", "anchors": ["fiksi/src/assemble/mod.rs:solve", "fiksi/src/lib.rs:fix", "fiksi/src/solve/lm.rs:levenberg_marquardt"]}
{"id": "C92", "title": "Points on a line stay on it", "statement": "If some points lie on a straight line and the only constraints on them are distances between them, equal lengths of segments between them and incidences of one of them with a circle around another one, they still lie on that line after solve, whether or not the lengths can be met. A user who wants the points to leave the line must move one first.", "quantifier": "all legal histories, all lines, all numbers of points, fixed or not, beside any other constraints on other elements; both optimisers (L-BFGS: constraints about distinct points), Decomposer::None and SinglePass, no perturbation, exact arithmetic", "why_tests_cant": "The lines, the numbers of points and of iterations are unbounded, and rounding hides a drift; a test shows one row of points, mostly along an axis.", "anchors": ["fiksi/src/assemble/mod.rs:solve", "fiksi/src/constraints/expressions.rs:PointPointDistance", "fiksi/src/constraints/expressions.rs:SegmentSegmentLengthEquality", "fiksi/src/solve/lm.rs", "fiksi/src/solve/lbfgs.rs"]}
{"id": "C93", "title": "Two points that are asked for a distance share the way", "statement": "If two points in different places are not fixed and only asked for the distance between them, solve moves both along the line through them, by the same way in opposite directions: the middle between them and the direction of their segment stay, whether or not the distance can be met.", "quantifier": "all legal histories in which no constraint joins two constrained parts, all places and distances, any number of such constraints between the two, beside any other constraints on other elements; both optimisers (L-BFGS: constraints about distinct points), Decomposer::None, no perturbation, exact arithmetic", "why_tests_cant": "The places and distances are unbounded; any solver that meets the distance passes a test of the residual, also one that moves only one point or turns the segment.", "anchors": ["fiksi/src/assemble/mod.rs:solve", "fiksi/src/constraints/expressions.rs:PointPointDistance", "fiksi/src/solve/lm.rs", "fiksi/src/solve/lbfgs.rs"]}
