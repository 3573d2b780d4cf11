# Formal model of fiksi (Lean 4)

Source under study: `/repo` (crates `fiksi`, `solvi`, `colamd_rs`, `fiksi_svg`), read as text. The Lean project is `lean/`.
Properties are in `properties.jsonl`, claims in `MANIFEST.json`, attempts with wrong programs in `seeded/LOG.jsonl`.

## Layout

* `Verif/Model/*` – the model, one Lean definition per Rust function or loop body. Every definition cites file and lines.
* `Verif/Spec/*` – small specifications that do not use the model's helpers (stores, geometry, partitions, matchings, SCCs,
  dense matrices, forests, sparsity patterns, drawings).
* `Verif/Proofs/*` – lemmas.
* `Verif/Props/*` – the property theorems `Cnn_…`, each with a concrete case that meets its hypotheses.
* `Verif/Tests/UnitTests.lean` – the known-value unit tests of the code base, evaluated on the model. Tests of the model, not proofs.

## How the code is modelled

* A function returns `R α = Except Panic α`. Every index, `unwrap`, `unreachable!`, `assert!`, checked conversion and checked
  subtraction is an explicit error. `outOfFuel` is not a panic of the code: it bounds loops that have no bound in the code; theorems
  either show that it cannot occur (with an explicit bound) or are about runs that return.
* `&mut` becomes returning the new value; loops are folds or recursions over the same index sequences.
* `Vec` is `List`. The raw pointers of `colamd` are `Mem` (a size and a total function); every access is checked, and an access outside
  is `indexOutOfBounds` (undefined behaviour in the code).
* `usize` and `u32` are `Nat`; conversions `try_into().unwrap()` to `u32` are checked; additions of `usize` are not checked for overflow.
  `usize::MAX` used as "none" is `none`. `i32` in `colamd` is `Int`; every `i32` operation of the scoring, the ordering and the numbering
  of absorbed columns is checked (`i32`), and in the row form those that can overflow on legal inputs (`subI32`, `mulI32`, `asI32`). `i16` counts of recursive assembly are `Int` in `Model/Decompose.lean`; `Model/DecomposeI16.lean` has them
  with and without overflow checks, and C78 compares the two.
* `f64`: structural theorems hold for every number type; analytic theorems are over ℝ (`FloatOps ℝ`, division by zero is `0`, exact
  `sqrt`, `atan2 = arg`). Rounding, NaN and infinities are not modelled, except where a theorem says so (NaN is modelled by a number type
  with a value for which every comparison is false: `C52_nan_never_returns`).
* `BTreeSet`, `BTreeMap`, `IndexMap`: lists in their iteration order. `HashMap`/`HashSet` that are iterated: the order is a parameter
  (an oracle), universally quantified. `sort_unstable`: a parameter that returns some sorted permutation.
* `debug_assert!` is not modelled (release build).

## Per property

| id | what is modelled | how it is proved |
|----|------------------|------------------|
| C01–C05, C07–C11 | `System`, handles, creation, reads, fix/unfix, updates, enumeration | refinement of a store of numbered elements (`Spec.Store`), by induction over call histories |
| C06 | the system-id checks | decision lemmas; negation for the unchecked writers |
| C12, C14–C16 | the residual formulas over ℝ | algebra, `Complex.arg`; negations at degenerate configurations |
| C13, C50 | the gradient formulas over ℝ | `HasDerivAt` calculus along every differentiable motion |
| C17 | `graph.rs` | invariant; negation for the stale component indices |
| C18 | `ExpressionGraph` | invariant over call histories |
| C19 | Hopcroft–Karp | layering invariant; maximality through augmenting paths |
| C20 | Pearce's SCC algorithm | depth-first search invariant |
| C21, C22 | the plans of `solve` | from C17–C20; negations for dropped constraints |
| C23–C25 | `solve`, optimizer arbitrary | frame proofs per decomposer |
| C26 | `levenberg_marquardt` | induction over the loops |
| C27, C54 | `lbfgs` with its ring buffer and line search | comparison with the BFGS recursion; negation for iterations 1–4 |
| C28 | the generator, the perturbation | full period by arithmetic modulo 2^32; order independence of the default decomposer |
| C29 | dense and sparse Jacobian assembly | lists against derivatives; negation for repeated variables |
| C30 | Gauss–Jordan | row-space invariant; negations for tall systems and the absolute tolerance; no panic in any arithmetic (`C30_analyze_any_numbers`) |
| C31–C36 | `TripletMat`, `SparseColMat`, permutations, back substitution | refinement to dense matrices; `C31_reused` shows that the triplet matrix which `levenberg_marquardt` clears and fills again is the one that the model builds anew (`Props/ClearReuse.lean`) |
| C37, C38 | `post_order`, `node_depth_levels` | forest invariants |
| C39 | the elimination tree | against the fill pattern of the elimination game |
| C40, C41 | Householder reflectors, numeric QR, `solve_mut` | orthogonality and normal equations over ℝ |
| C42, C48 | row assignment, row and column counts, structure of R and H | against the fill pattern; weight sums over paths of the tree |
| C43, C44 | `colamd_recommended`, the checks and reported errors | arithmetic, scan invariants; negations |
| C45 | `init_rows_cols` | scan, pointer and slot invariants; negation for unsorted columns |
| C46 | `order_children` | forest of absorbed columns |
| C47 | the matrix built by `symamd` | rank invariants |
| C55, C56 | `init_scoring`, `find_ordering`, `detect_super_cols`, `garbage_collection`, `colamd`, `symamd` | invariant over live rows and columns, degree lists, tags and free space, kept by each phase, with bounds that keep every `i32` in range; the columns absorbed form a forest |
| C57 | the call of `colamd` in `SymbolicQr::build` | from C55; negation for 2^30 entries |
| C58 | the line search of L-BFGS, as a search on a function of one variable | the evaluations are values and half derivatives of the objective along the line; limit of the bisection; convexity; exactness of the secant step; negation by a concrete problem |
| C59 | `init_scoring` with the thresholds of `Options`, for `colamd` and `symamd` | the removed columns fill the end of the order and stay there (`Frozen`); the counts of `init_scoring` are counts of entries of the input; negation by a cross of 17 columns |
| C60 | the scaling step of `solve` (`System.scale`, `scaledVariables`, `scaledExpressions`) under all decomposers | simulation between the history and its multiple: all parts of the model commute with multiplication, the scaled system is the same (`C60_unit_of_length`, exact arithmetic, every factor). In binary64 without limits on the exponent the same holds to the last bit for factors `2 ^ j` (`C60_binary_unit`; rounding commutes with powers of two, proved for the instance `binary64`) |
| C61 | `solve` with all decomposers (subsystems, clustered systems, poses, write-back) and the stopping rules of both optimisers | invariant `variables` and `variables_transformed` unchanged; residuals of every subproblem vanish at the current values; negation with the default options by two coincident points |
| C62 | `solve` with `None` and `SinglePass` over the reals, with `RecursiveAssembly` for distances between points | invariant over components and blocks: solved equations read only variables that later calls do not write; fixed variables and settled blocks have equal scaled and unscaled copies; `Optimize.checked` turns any optimiser into one that meets the hypothesis; for distances `decompose` is shown to plan one step per pair of points (`decompose_pairs`), and C64 keeps what was solved up to 3ε per step; negations by a history with a lost constraint and by recursive assembly of a circle |
| C63 | `ClusteredSystem::build`, residuals and Jacobian of clustered systems | induction over the rows written so far, as functions of one variable; chain rule for poses (C50) and expressions (C13); `build` counts two rows per point of a cluster. Dense form: the places of the entries do not depend on the values and are different (`build` gives different variables different columns, after those of the poses), so entries are written once and the rest of the buffer stays zero; false when an expression repeats a variable |
| C64 | one step of `Decomposer::RecursiveAssembly`: `ClusteredSystem::build`, its residuals, the write-back and the moves of owned elements | the closure computed by `build` is exactly the one of `Spec/Carry.lean` (loop invariant of `followClusters`); every equation and every pose equation is a row of the residuals; invariant of `decompose`: no element is owned twice, so no point is moved twice |
| C65 | `dense_bfs` | against `Spec/Dense.lean` (connected sets by cuts, freedom as a sum over sets): states of one size are handled before the next size; a state's count is the freedom of its set, its frontier is the set of joined vertices; negations for the documented condition |
| C66 | `levenberg_marquardt` with the modelled sparse QR | refinement of the relation `Fitting.Run` of `Spec/LevenbergMarquardt.lean` (steps by normal equations, no buffers); the relation is functional; reasons for stopping and bounds on the gradient by induction over it; `C66_stuck` is a figure that `solve` leaves alone although it has a solution |
| C67 | `lbfgs` with its line search | refinement in both directions of the relations of `Spec/HagerZhang.lean` (`Step`, `Steps`, `Lbfgs`: no buffers, no ring, no two-loop recursion), which is shown functional; reasons for stopping by induction over it |
| C68 | the same | invariant: the corrections come from steps with positive curvature, so the matrix is positive definite; parabolas for linear residuals; negation by a polynomial residual on which the secant step goes backwards |
| C69 | `solve` with `None` and `levenberg_marquardt` (modelled sparse QR and `colamd`) for systems of coincidences | the residuals are an affine map, its matrix is the incidence matrix of a graph; `Σ r² ≤ n²·|Jᵀr|²` by summing differences along paths (`Proofs/Differences.lean`); for such maps every reason for which the run of C66 can end leaves small residuals (`Proofs/AffineLm.lean`); components and scaling by C62; negation by eight points whose last coincidence lands in a component without elements |
| C70 | all residual formulas, through `calculate_residual` | the model is generic in the number type; here it is run on real numbers with rounded operations (`Spec/Rounding.lean`). A calculus of relative errors (`Proofs/Rounding.lean`); rounding to the nearest number of 53 bits is shown to have the relative error 2⁻⁵³ (`Proofs/Binary64.lean`). The claim is against the geometry of `Spec/Geometry.lean`, not against the formulas |
| C71 | `contract` (part of `decompose`) | a declarative relation on graphs (`Spec/Contract.lean`), shown for every order by an invariant of the fold over the frontier, also for constraints with several ends in the core; the count by splitting the sums of `freedom`; negations by running the loop on two figures |
| C72 | `solve` with all decomposers, both optimisers, in rounded arithmetic (`Spec/Rounding.lean`) | error bounds for the scale (a long sum of squares), the scaled coordinates and the residuals (`Proofs/RoundedSums`, `Proofs/StayRounded`; `Proofs/StayAngles` for angles, point-line distances and tangencies) show that both optimisers stop at their start; the rest is what `solve` writes back (`Proofs/Stay`). Not covered: angles, point-line distances and tangencies with lines or arms shorter than a hundredth of the figure or straight angles (ill conditioned), overflow. For `RecursiveAssembly` (`Proofs/StayAssembly`): binary64 rounding and a library with `sin 0 = 0`, `cos 0 = 1`, so that the identity pose moves nothing; that `solve` returns is assumed, or follows from plans as in C53 |
| C73 | `solve`, `calculate_system_scale` | the runs with and without the changes are compared component by component: a component inside the set reads only variables and expressions of the set (`Proofs/Overlay`: every step of `solve` commutes with overlaying other values outside), one outside writes nothing inside, and the generator and the calls do not depend on values. Partial: the unit of length must stay the same; otherwise false |
| C74 | `solve`, `levenberg_marquardt`, all expressions | Levenberg–Marquardt is shown to do the same in turned coordinates: the step is the unique minimiser of a linear model (C66), and an orthogonal map of the variables with a signed permutation of the equations carries residuals, Jacobian, gradient and step over (`Proofs/FittingMap`, `LinearModel`, `Turned`); `Proofs/ConTurn` shows for every kind of constraint that turning does that, `Proofs/FigureTurn`, `FigureSolve`, `FigureParts` put this together for `solve`. L-BFGS uses the cost, the gradient and dot products only (`Proofs/ObjectiveMap`, by C67), so the same holds for it if constraints are about distinct points (its dense Jacobian is wrong otherwise, C29). Exact arithmetic, `Decomposer::None`, no perturbation. Partial: false for translations (negation), and for angles because of the cut (C14); `SinglePass` by a counterexample (`Props/AxisPass.lean`) |
| C75 | as C74, and `add_constraint` in `graph.rs` | as C74 with a permutation of the variables and equations; components are the linked parts (C17) if no constraint joins parts. Partial: otherwise false (negation); with `SinglePass` false even then (negation, by the explicit result of a block with one coincidence equation) |
| C76 | `solve` with `None` and `levenberg_marquardt` (modelled sparse QR and `colamd`) for distances and incidences on circles | for a single distance the damped step of Levenberg–Marquardt is along the line through the two points and multiplies the gap by a factor in `[0, 1)` that falls with the damping (`Proofs/Gap.lean`); 100 rounds bring any start below `10⁸⁰` under `10⁻⁸`; components with one constraint each, by C17; perturbation bounded by C57. Partial: false if constraints share points (negation) |
| C77 | all calls of the API, `analyze` and `solve` | the fields of the system other than the graph are functions of the store (refinement relation of C01–C09); creating an element commutes with creating constraints that do not use it, so the graph is always the one made by creating all elements first and all constraints after them (`Graph.Canonical`, induction over the history). Any arithmetic |
| C78 | `decompose` with `i16` counts: every addition and subtraction goes through `narrow` (panic outside the range, or two's complement) | simulation of the exact functions; a bound on all counts that is kept by the loop (the largest count at most doubles when a cluster is contracted, and a vertex disappears). Full statement false: two points with 32768 distances |
| C79 | `symamd` | the matrix M and its pointers are a function of the list of first occurrences below the diagonal (every cell of the buffer is determined) |
| C80 | `colamd`, `symamd`, `stats_to_result` | the scan's statistics equal a report on the list of jumbled entries; later steps leave it alone. Full statement false for `symamd`, which always reports `Ok` |
| C81 | `System::solve` | one call does not increase the sum of squares of its equations (C26); components share no variables, so the sum over any union of them does not increase either; the residual of a constraint squared is the sum over its equations. For L-BFGS proved for figures of coincidences, whose residuals are linear (C68). Full statement false with perturbation and with `SinglePass` |
| C82 | `factorize`, `solve_mut` of the sparse QR in rounded arithmetic (`Spec/Rounding.lean`) | backward error analysis: every rounding is a factor with exponent bookkeeping (`Proofs/RelError`); a computed reflector is near an exact one, also when applied (`Proofs/RoundedReflector`); the reflectors of all columns keep lengths, so errors add up and can be carried back to the columns of A (`Proofs/VecNorm`, `Proofs/RoundedQr`); back substitution solves a nearby triangular system exactly (`Proofs/RoundedBackSubst`). The claim is against minimisers of `|A'x - b'|`, not against the algorithm. `C82_damped_step` is the same for the steps of LM |
| C83 | `try_from_data`, `SparseFormatError` (without the texts) | the spec `Spec.Describes` reads each error as a statement about the pointer and row lists alone; induction over the columns and the entries of a column. Holds also where the scan meets a pointer beyond the data first (release: an error or a panic, debug: the `debug_assert`) |
| C84 | `init_scoring`, `find_ordering` (first pivot), `symamd` | the invariant of the ordering loop (C55) shows that the chosen pivot has the least score; the pivot keeps position 0 and thickness 1 to the end (`Frozen`, `Pivoted.pivotKeeps`), also across garbage collections; the initial scores are computed exactly (`startScore`) and, for `symamd`, counted by double counting over the rows of `M`, which are the edges. Later pivots use approximate scores, for which nothing of this kind is claimed; neither are ties |
| C85 | `init_scoring`, `find_ordering` (all pivots), `symamd` | invariant of the ordering loop (`Tree`): while the columns are a forest in which neighbours share one row, every score is at most the number of live neighbours, so the pivot, being of least score, has at most one live neighbour (`Loose`); ordering it keeps the graph of the remaining groups a forest (`orderPivot_tree`), and groups that are merged are pairs that hang together (`Groups.single`). `C85_acyclic` derives the forest from Mathlib's `SimpleGraph.IsAcyclic`. `C85_qr_forest` combines this with the meaning of the symbolic factorisation (C48): a vertex reached by the elimination climbs along the only later neighbours (`C85_no_fill`), and a row of a forest has at most two entries, so no row is dense |
| C86 | `System::solve`, expressions, `levenberg_marquardt`, `lbfgs` | translation: an expression of the points of the set does not change when they are all shifted, so its gradient adds up to zero over them (`Expr.gradient_shift`); a step of least squares with damping lies in the row space of the Jacobian and so does the L-BFGS direction (`Run.balanced`, `Spec.Objective.Lbfgs.balanced`); no optimiser is opened up, only the steps they are shown to take (`crateOptimize_balanced`). Negations for the default perturbation and for SinglePass |
| C87 | `System::solve` called twice, `calculate_residual` | the residual read through the API is, in units of the size, the root of the squares of the equations that `solve` sees (`Rel.residual_squares`), so few small residuals keep every call below the tolerance with which the optimisers start (`Reaches.crate_stays`). The negation combines C69, C73 and C23: the values of the near pair after the first call are found by comparing with a figure of the same size |
| C88 | `System::solve` with `None` and `levenberg_marquardt` for coincidences that need not have a solution | the normal equations have a solution (orthogonal projection); relative to it the residuals are an affine problem that can be solved (C69) plus a vector that no step sees, so every step is a step of that problem and each reason for stopping leaves little above the least sum (`Proofs/Compromise.lean`); one call by C66, components by C17, places of points as values of variables; for one loose point the least sum is at the mean of the fixed ones (`Props/Centre.lean`). Full statement false for other constraints (`C66_stuck`) and decomposers |
| C89 | `System::solve` with `None` and `levenberg_marquardt` for coincidences | C69 (each link ends within the tolerance) and C86 (the centroid stays), with a path of at most n - 1 links between two points (`Props/Meeting.lean`). Full statement false for `SinglePass` and joined parts (negations of C86) |
| C90 | `System::solve` on a figure with a symmetry | the case of C75 (turned and renumbered figures) in which the second figure is the first (`Props/Symmetry.lean`). Full statement false for `SinglePass` and with perturbation (negations) |
| C91 | `System::solve` with `None` and `levenberg_marquardt` for coincidences with fixed points | C69 for each link, C23 for the fixed point, and a path between two linked points that has fewer links than there are elements (`Props/Drawn.lean`); the negation for joined parts in `Props/DrawnJoined.lean` |
| C92 | `System::solve` with `None` and `SinglePass`, both optimisers, for distances, equal lengths and points on circles | the gradient of a length is along the line while all points are on it; a run of either optimiser keeps every weighting that all gradients annul under that condition (`Run.keeps`, `Lbfgs.keeps` in `Proofs/Straight.lean`) (`Props/Straight.lean`); with `SinglePass` both coordinates of such a point are in the same block, since the same equations read them (`same_step` in `Props/StraightPass.lean`); a counterexample with perturbation (`Props/StraightDefault.lean`) |
| C93 | `System::solve` with `None`, both optimisers, for distances between two points | C92 for the line through the points and C86 for their centroid (`Props/PairMoves.lean`) |
| C49 | `decompose` for every hash order | invariants; negations |
| C51 | `render_system` as a list of shapes and a view box | list induction; the view box over ℝ |
| C52, C53 | termination and panic freedom of `solve` | LM: decrease of the residual, exactness of the modelled QR; L-BFGS: the objective along a line is, to the right of every place, analytic or a distance of points that meet there, so that it does not change direction infinitely often. Recursive assembly: once its plan exists, every step is a total problem (all its variables are mapped, all poses exist). Panic freedom is also proved for every number type whatever its operations return (`Props/AnyNumbers.lean`), so for binary64 with its infinities and NaN: no index of the optimisers, the sparse QR or the assembly depends on a value. Termination of LM also in rounded arithmetic (`Props/LmRounded.lean`): by C82 each step solves a damped problem near the given one; when the damping is large, that problem has independent columns and a solution below the limit at which the loop stops |

## What the code does against its properties

Each item is a theorem with a concrete witness.

1. `graph.rs` merges components with stale indices: linked elements end in different components
   (`C17_joined_parts_fall_apart`, `C17_linked_elements_separated`), and constraints of components without elements are never solved
   (`C22_constraint_never_solved`).
2. The dense Jacobian assigns instead of summing when an expression repeats a variable (`C29_dense_fails_on_shared_points`).
3. `analyze`: rows from number `n` on are always reported (`C30_tall_system_wrong`); the tolerance is absolute (`C30_tolerance_wrong`).
4. Writers do not check the system id (`C06_writers_unchecked`); the id counter wraps (`C10_ids_wrap`).
5. A zero scale divides by zero (`C15_zero_scale`); a NaN makes LM loop forever (`C52_nan_never_returns`).
6. L-BFGS reads wrong or unwritten slots in iterations 1–4 (`C27_early_iterations_wrong`).
7. `RecursiveAssembly`: panics on a square (`C49_square_panics`, `C53_recursive_panics`), leaves elements unowned
   (`C49_elements_unowned`), solves constraints without their arguments (`C49_missing_argument`), moves fixed elements
   (`C23_recursive_moves_fixed`), depends on hash order (`C28_recursive_depends_on_hash_order`).
8. `SinglePass` drops unmatched equations (`C22_singlePass_drops_constraint`).
9. Residuals at straight angles and degenerate lines (`C12_straight_angle_fails`, `C12_degenerate_line_fails`, `C14_straight_angle_fails`).
10. `SparseColMatStructure::try_from_data` panics on some malformed data (`C32_panics`); `empty` is malformed (`C32_empty_rejected`).
11. `permute_columns` of a matrix does not permute the values (`C34_values_wrong`).
12. `solve_upper_triangular_mut` fails on entries below the diagonal (`C36_lower_not_ignored`).
13. Sparse QR of a structurally deficient matrix panics (`C41_deficient_panics`).
14. `colamd` panics instead of returning its documented errors (`C44_negative_rows_panics`, `C44_negative_nnz_panics`,
    `C44_overflow_panics`).
15. `colamd` on unsorted columns scans positions `A[start] .. A[start] + length` (`C45_jumbled_wrong`); with
    `aggressive_row_absorption: false` it then leaves its buffers: undefined behaviour from the safe API (`C45_jumbled_undefined`).
16. `SymbolicQr::build` fails from 2^30 entries on, not from 2^31 as documented (`C57_build_overflows`, for fewer than 2^29 - 2 columns): `2 * nnz` overflows an `i32`.
17. The view box of a drawing with one point is empty (`C51_single_point_degenerate`).
18. The line search returns a step that does not meet its own conditions when the minimum is beyond 5 (`C58_wolfe_fails`): the bracket is not
    grown. The field documented as the derivative is half of it (`C58_slope`).
19. L-BFGS never returns when the objective jumps along the search line and falls on both sides of the jump
    (`C52_lbfgs_jump_never_returns`): a point that passes the corner of an angle constraint is enough.
20. L-BFGS does not return on a right angle between two lines with a common end point (`C52_lbfgs_shared_corner_never_returns`): the derivative
    is overwritten instead of added (finding on C29), has the wrong sign, and the bisection of the line search goes on for ever.
21. The documented rule for dense rows in `colamd` is not the one used (`C59_dense_row_kept`): entries in dense columns are not counted. Columns that
    are left without a kept row are ignored too. Negative controls make only full rows and columns dense (`C59_negative_control`), and `symamd`
    ignores `dense_column_control` and uses `min(edges, n)` (`C59_symamd_ignored`).
22. With the default options (perturbation on) a satisfied figure is moved (`C61_default_moves`): the noise stays below the optimiser's threshold, so the
    perturbed values are returned; two points that coincided do not coincide afterwards. Without perturbation nothing moves (C61).
23. `System::solve` says that all constraints will be satisfied if solving is successful. After joining constrained parts (finding on C17) every call of the
    optimiser may end at residuals of zero and a constraint is still violated (`C62_unsatisfied_after_success`). Without joining it holds (C62).
24. Recursive assembly solves lengths anew in every step that reads them; nothing keeps what earlier steps solved with them (the code has a TODO there). With
    two points on one circle both calls of the optimiser end at residuals of zero and the first point is off the circle
    (`C62_recursive_unsatisfied_after_success`). With distances between points only (at most seven for one pair) it holds, but every step bends the clusters by
    up to three times the optimiser's residual, so the bound grows with the number of steps (`C62_recursive_distances_partial`).

25. `dense_bfs` tests `dof - valency > -(D + 1)`, its documentation says `dof - valency < D + 1`: any pair of elements that share a constraint counts as
    dense (`C65_sparse_found`), and pairs with many constraints do not (`C65_dense_missed`). A constraint that names an element twice is subtracted twice if
    that element is added last (`C65_repeated_counted_twice`).
26. L-BFGS may end at a larger sum of squares than it started from (`C68_worse`: from 1 to 49): the secant step is not confined to the bracket, and with a
    step backwards the first Wolfe condition permits an increase. Where the double secant step shrinks the bracket too little, the old bracket is bisected
    and not the new one as in Hager and Zhang's step L2 (`lbfgs.rs:430-438`; part of the relation `Search` in `Spec/HagerZhang.lean`).
27. Eight points and seven coincidences, made in an order that joins parts (see item on C17): `solve` leaves the points of the last coincidence at distance 1 (`C69_joined_coincidence_unsolved`).
28. The residual of tangency is computed from products of the coordinates themselves (`expressions.rs:819-873`), not of their differences as the distance of a point from a line is. Far from the
    origin digits are lost: a circle of radius 1 that touches a line at x = 2^53 − 1 exactly has a residual above 1/4 (`C70_tangency_far_out`).
29. Contraction: the new vertex gets `frontier dof − incoming valency − D` degrees of freedom; the method (Hoffmann et al.) needs the opposite sign so that the cluster counts `D`
    (`C71_count_wrong`: a cluster counts −1). An edge between two frontier vertices becomes an edge to the core at the vertex that the hash set lists first
    (`C71_depends_on_hash_order`).
30. `solve` writes every free variable back as `scale * (x * (1 / scale))`, also where the optimiser changed nothing. A figure that satisfies its constraints exactly is therefore moved by
    rounding (`C72_stays_exactly_fails`: two coincident points at (1, 7) end at (1, 7.000000000000001)).
31. The unit of length (`calculate_system_scale`) is computed from all elements and distances of the system, also from those that no constraint uses, and the stopping rules of the optimisers are relative to it.
    One far away point therefore keeps everything else from being solved (`C73_distant_point_stops_solving`: two points that shall coincide are left 1 apart once an unrelated point is at (10^9, 0)).

32. The unit of length is the root mean square of the coordinates, measured from the origin, and not of the extent of the figure. A figure far from the origin is therefore not solved
    (`C74_far_from_origin_stops_solving`: two points that shall coincide and are 1 apart are brought together near the origin, and left as they are at (10^9, 0) and (10^9 + 1, 0)).
33. The result depends on the order in which constraints are created, because joined parts fall apart (see C17): `C75_order_of_constraints_matters`, the same points and coincidences, all solved
    in one order and one of them ignored in the other.
34. `SinglePass` pairs equations with single coordinates, so a direction of the plane is preferred (`C74_singlePass_prefers_an_axis`: two points that coincide, one of them asked to be at distance 1 from a
    fixed point 3 away, all on one axis; solved if it is the first axis, left at distance 3 after a quarter turn).
35. Recursive assembly counts in `i16`. Two points with 32768 distances between them make `solve` panic in a build with overflow checks (`C78_counts_overflow`, for every optimiser, hash order and number of
    distances from there on). Figures with at most 10 elements and 50 constraints are safe (`C78_small_figures_partial`); the degrees of freedom of a cluster can double with each contraction, so the proved bound is exponential in the number of elements.
36. With `Decomposer::SinglePass` the result depends on the order of the constraints even if they never join parts: of three points that shall coincide, two of which start at the same place, either
    these two stay or all three move, depending on which coincidence was created first (`C75_singlePass_order_matters`).
37. `symamd` reports `Status::Ok` for every input, sorted or not: its own scan finds the unsorted and repeated entries, but `colamd`, called on the matrix M, clears the statistics (`C80_symamd_always_ok`, `C80_symamd_unreported`).
38. With the default options `solve` can make a figure worse: residuals that are zero are not zero afterwards (`C81_default_worse`). `Decomposer::SinglePass` can double the sum of squares, because it leaves out equations of over-determined parts (`C81_singlePass_worse`). With `Decomposer::None` it can make a figure worse where a constraint has joined parts: the later component is solved against the places that the earlier one had before the call (`C81_joined_worse`).
39. `PushTriplet` documents that values pushed at the same place are added; `DenseColMat` overwrites. With `RecursiveAssembly`, L-BFGS therefore gets a wrong derivative when a constraint has a point in two roles (`C63_dense_overwrites`: two parallel lines with a common end point); the same as item on C29, in other code.
40. The default perturbation is never negative, so every default `solve` drifts a free figure towards larger coordinates, also one that meets its constraints already (`C86_default_shifts`). `Decomposer::SinglePass` moves one side only where a constraint is stated twice (`C86_singlePass_shifts`), and so does `Decomposer::None` where parts were joined (`C86_joined_shifts`).
41. `solve` is not idempotent, even after success: the unit of length is taken from the figure before the call, so a second call can move parts that the first one took for solved (`C87_second_solve_moves`: a pair 1 apart stays apart while another pair is 2·10⁶ apart, and is closed by the second call).
42. The default options do not keep the symmetry of a figure (`C90_default_breaks_symmetry`), because every coordinate is perturbed upwards; nor does `SinglePass`
    (`C90_singlePass_breaks_symmetry`: a point in the middle between two fixed points, asked to be at both, goes to the first of them).
43. Points that lie on a line leave it with the default options, even if nothing asks them to (`C92_default_leaves_line`); without perturbation they stay on it.
44. Points that are linked to a fixed point by coincidences are not drawn to it if the last constraint joins parts of the figure (`C91_joined_not_drawn`), by item 1.

Not formalized, seen while modelling: the doc comment of the signed point–line distance has the other orientation.

## Trusted base

* Lean 4.33.0's kernel, and Mathlib. The theorems use the axioms `propext`, `Classical.choice` and `Quot.sound` only (some use none);
  there are no own axioms, no `sorry`, no `native_decide`.
* The reading of the Rust source into the model, as described above, checked by the unit tests in `Verif/Tests`.
* C70, C72 and C82 are about the standard model of rounding: `+ - * / sqrt` return the exact result rounded to nearest, no exponent limits; `atan2` has a relative error of at most `2u`. That the
  target's `f64` is such an arithmetic while nothing overflows or underflows is IEEE 754 and the quality of its `atan2`.
* Assumptions that appear as hypotheses or parameters: a sorted permutation from `sort_unstable`; some iteration order of hash sets; `cast : f64 → i32` in the dense thresholds of `colamd`;
  `kurbo::Rect` as documented; histories of fewer than 2^30 calls.
* Ghost fields that are not in the code: `accepted` (LM), `corrections` (L-BFGS), `calls`.
* Not modelled: `Debug`/`Display` formatting, text formatting of the SVG, colour conversion, `no_std` float shims, the example programs,
  benchmarks and tests.
