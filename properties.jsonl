{"id": "C01", "title": "hypervolume() is the Lebesgue measure of the dominated region", "statement": "hypervolume(pointset, ref) terminates and returns the Lebesgue measure of the set of vectors that are weakly dominated by at least one point of `pointset` and weakly dominate `ref`.", "quantifier": "for every finite point set (dominated points, duplicates, ties, points equal to or outside the reference allowed), every reference point, every number of objectives >= 1, and every tie-breaking of the internal sort", "why_tests_cant": "The routine caches partial areas, keeps per-dimension bounds and ignore flags across recursive calls; a stale cache would only show up on particular interleavings of points and only in >= 4 objectives. Tests check a few fixed fronts.", "anchors": ["hvd/hypervolume.py:hypervolume", "hvd/hypervolume.py:HyperVolume.compute", "hvd/hypervolume.py:HyperVolume.hvRecursive", "hvd/hypervolume.py:MultiList"]}
{"id": "C02", "title": "hypervolume() does not depend on the order of the points", "statement": "Permuting the rows of `pointset`, or repeating rows, does not change the returned hypervolume, and neither does the way ties are broken when sorting a coordinate.", "quantifier": "for all point sets, all permutations/repetitions, all reference points and all dimensions >= 1", "why_tests_cant": "There are n! orders and the algorithm is order sensitive internally (linked lists, unstable argsort).", "anchors": ["hvd/hypervolume.py:HyperVolume.compute", "hvd/hypervolume.py:HyperVolume.preProcess", "hvd/hypervolume.py:HyperVolume.sortByDimension"]}
{"id": "C03", "title": "hypervolume() is monotone and blind to irrelevant points", "statement": "Adding points never decreases the hypervolume; adding a point that is weakly dominated by an existing one, or that does not weakly dominate the reference point, leaves it exactly unchanged; the value is never negative and never exceeds the box spanned by the componentwise minimum and the reference.", "quantifier": "for all point sets, added points and reference points, in every dimension >= 1", "why_tests_cant": "Needs all pairs of point sets; caching errors would break it only on rare configurations.", "anchors": ["hvd/hypervolume.py:HyperVolume.compute", "hvd/hypervolume.py:HyperVolume.hvRecursive"]}
{"id": "C04", "title": "hypervolume() is translation invariant and scales with the axes", "statement": "Shifting all points and the reference by the same vector leaves the hypervolume unchanged; multiplying axis i of points and reference by s_i > 0 multiplies it by the product of the s_i.", "quantifier": "for all point sets, references, shift vectors and positive scale vectors", "why_tests_cant": "The code has a separate branch for references that are all zero (no shift is done); equality of both branches for all inputs is not testable.", "anchors": ["hvd/hypervolume.py:HyperVolume.compute"]}
{"id": "C05", "title": "hypervolume_improvement() is the exclusive volume of the new point", "statement": "hypervolume_improvement(x, front, ref) equals the measure of the region dominated by x inside the reference box and not dominated by any point of the front; hence it is >= 0 and it is 0 exactly when x is weakly dominated by a front point or does not strictly dominate the reference.", "quantifier": "for all points x, all fronts (also empty) and references, in every dimension >= 1", "why_tests_cant": "Non-negativity of a difference of two independently computed values for all inputs.", "anchors": ["hvd/hypervolume_derivatives.py:hypervolume_improvement"]}
{"id": "C06", "title": "hypervolume() is strictly Pareto compliant", "statement": "If every point of B is weakly dominated by a point of A, and some point of A that strictly dominates the reference is not weakly dominated by any point of B, then hypervolume(A, ref) > hypervolume(B, ref).", "quantifier": "for all finite sets A, B and references in every dimension >= 1", "why_tests_cant": "A statement over all pairs of sets.", "anchors": ["hvd/hypervolume.py:hypervolume", "README.md"]}
{"id": "C07", "title": "non_domin_sort() returns a partition into consecutive fronts", "statement": "non_domin_sort(Y, only_front_indices=True) terminates without recursion errors and returns fronts labelled 0,1,...,m such that every row index appears in exactly one front, no front is empty, and no front contains two points one of which dominates the other.", "quantifier": "for every non-empty list of vectors with at least two objectives, including duplicates and ties", "why_tests_cant": "Divide and conquer with medians, merges and two sweeps; failures appear only for particular tie patterns and sizes.", "anchors": ["hvd/utils.py:non_domin_sort", "hvd/utils.py:_nd_helper_a", "hvd/utils.py:_nd_helper_b", "hvd/utils.py:_sweep_a", "hvd/utils.py:_sweep_b"]}
{"id": "C08", "title": "non_domin_sort() fronts are exactly the dominance ranks", "statement": "A point is in front 0 iff no other point dominates it, and in front k+1 iff it is dominated by some point of front k and by no point of a front above k; equivalently the front number is the length of the longest chain of dominating points above it.", "quantifier": "for every non-empty list of vectors with >= 2 objectives", "why_tests_cant": "Agreement of a fast algorithm with the definition for all inputs; a unit test covers a handful of populations.", "anchors": ["hvd/utils.py:non_domin_sort", "hvd/utils.py:_nd_helper_a", "hvd/utils.py:_nd_helper_b", "hvd/utils.py:_sweep_a", "hvd/utils.py:_sweep_b", "hvd/utils.py:_split_by", "hvd/utils.py:_merge"]}
{"id": "C09", "title": "non_domin_sort() is insensitive to input order and duplicates", "statement": "Permuting the input permutes the front labels accordingly, equal vectors get the same front, and applying a strictly increasing transformation to any objective leaves all labels unchanged.", "quantifier": "for all inputs, permutations and strictly monotone transformations", "why_tests_cant": "Metamorphic relation over infinitely many inputs.", "anchors": ["hvd/utils.py:non_domin_sort"]}
{"id": "C10", "title": "is_dominate() is Pareto dominance", "statement": "is_dominate(a, b) is True iff a is <= b in every objective and < in at least one of them; it is irreflexive, asymmetric and transitive, and vectors of different lengths are rejected.", "quantifier": "for all vectors", "why_tests_cant": "Order axioms quantify over all pairs and triples.", "anchors": ["hvd/utils.py:is_dominate"]}
{"id": "C11", "title": "get_non_dominated() returns exactly the non-dominated points", "statement": "get_non_dominated(Y) returns all points that are not dominated by another point (each point of Y is weakly dominated by a returned point, and no returned point is dominated).", "quantifier": "for all finite point sets", "why_tests_cant": "Behaviour with duplicates/ties is only visible on special inputs; no finite set of tests shows coverage for all.", "anchors": ["hvd/utils.py:get_non_dominated"]}
{"id": "C12", "title": "HVdY is the gradient of the hypervolume", "statement": "HypervolumeDerivatives returns in HVdY, for each point i and objective k, the partial derivative of the hypervolume with respect to y_i[k]; dominated points get a zero gradient and no entry is positive.", "quantifier": "for all sets of points strictly inside the reference box in general position (no two points share an objective value), any number of points and objectives >= 1", "why_tests_cant": "A derivative is a limit; numerical tests compare with autodiff at a few random points only.", "anchors": ["hvd/hypervolume_derivatives.py:HypervolumeDerivatives.hypervolume_dY", "hvd/hypervolume_derivatives.py:HypervolumeDerivatives._compute_gradient", "hvd/hypervolume_derivatives.py:HypervolumeDerivatives._project"]}
{"id": "C13", "title": "HVdY is zero for points that do not dominate the reference", "statement": "A point that lies beyond the reference point in some objective does not contribute to the hypervolume, so its rows in HVdY (and HVdX) are zero.", "quantifier": "for all point sets and references", "why_tests_cant": "Universal statement about all points outside the box.", "anchors": ["hvd/hypervolume_derivatives.py:HypervolumeDerivatives.hypervolume_dY", "hvd/hypervolume_derivatives.py:HypervolumeDerivatives._compute_gradient"]}
{"id": "C14", "title": "HVdY2 is the Hessian of the hypervolume", "statement": "HypervolumeDerivatives(compute_hessian=True) returns in HVdY2 the matrix of second partial derivatives of the hypervolume in the objective values; in particular it is symmetric, has a zero diagonal, and rows/columns of dominated points are zero.", "quantifier": "for all sets of points strictly inside the reference box in general position, any number of points, >= 2 objectives", "why_tests_cant": "Second derivatives of a piecewise polynomial for every configuration; clipping and recursion over dimensions make errors configuration dependent.", "anchors": ["hvd/hypervolume_derivatives.py:HypervolumeDerivatives._compute_hessian", "hvd/hypervolume_derivatives.py:HypervolumeDerivatives._project", "hvd/hypervolume_derivatives.py:HypervolumeDerivatives.hypervolume_dY"]}
{"id": "C15", "title": "HVdX and HVdX2 obey the chain rule", "statement": "HVdX = HVdY . dY/dX and HVdX2 = (dY/dX)^T HVdY2 (dY/dX) + sum_k HVdY_k d2Y_k/dX2 with block-diagonal dY/dX, for the user's Jacobians and Hessians.", "quantifier": "for all objective Jacobians/Hessians and all numbers of points, variables and objectives", "why_tests_cant": "Tensor index bookkeeping over all shapes.", "anchors": ["hvd/hypervolume_derivatives.py:HypervolumeDerivatives._compute_gradient", "hvd/hypervolume_derivatives.py:HypervolumeDerivatives._compute_hessian", "hvd/hypervolume_derivatives.py:HypervolumeDerivatives._compute_objective_derivatives"]}
{"id": "C16", "title": "maximization mode is consistent", "statement": "With minimization=False, compute(X) and compute(Y=func(X)) return the same hypervolume, and the gradient and Hessian calls report HVdY with the same sign convention.", "quantifier": "for all maximization problems and point sets", "why_tests_cant": "Relation between two API entry points over all inputs.", "anchors": ["hvd/hypervolume_derivatives.py:HypervolumeDerivatives.__init__", "hvd/hypervolume_derivatives.py:HypervolumeDerivatives.compute", "hvd/hypervolume_derivatives.py:HypervolumeDerivatives._compute_gradient", "hvd/hypervolume_derivatives.py:HypervolumeDerivatives._compute_hessian"]}
{"id": "C17", "title": "packing and unpacking of primal-dual vectors are inverse", "statement": "Nd_vector_to_matrix(matrix_to_Nd_vector(X, n, active), N, D, n, active) equals X on the primal block and on active dual entries and is 0 on inactive dual entries; packing the unpacked vector gives the vector back.", "quantifier": "for all N, n, D, all matrices and all boolean activity masks", "why_tests_cant": "Mixed shapes: index arithmetic over all masks and sizes.", "anchors": ["hvd/utils.py:matrix_to_Nd_vector", "hvd/utils.py:Nd_vector_to_matrix", "hvd/mmd_newton.py:Nd_vector_to_matrix"]}
{"id": "C18", "title": "handle_box_constraint() reflects into the box", "statement": "The result lies in [lb, ub] in every coordinate, is the identity for points already inside, is idempotent, and is invariant under moving a coordinate by twice the width of its interval.", "quantifier": "for all points, all bounds lb < ub, all numbers of points", "why_tests_cant": "All real inputs, arbitrarily far outside the box; also the layout heuristics when the number of points equals the dimension.", "anchors": ["hvd/utils.py:handle_box_constraint"]}
{"id": "C19", "title": "set_bounds() always yields one bound per dimension", "statement": "set_bounds(b, dim) returns dim values: a scalar is replicated, a singleton is broadcast, a vector of length dim is kept, anything else raises.", "quantifier": "for all scalars, sequences and dimensions", "why_tests_cant": "All shapes.", "anchors": ["hvd/utils.py:set_bounds"]}
{"id": "C20", "title": "precondition_hessian() returns a positive definite shift of H", "statement": "precondition_hessian(H) returns H + tau I with tau >= 0, returns H itself when H is positive definite, and the result is positive definite whenever the search succeeds; the search performs at most 45 factorizations.", "quantifier": "for all symmetric matrices H of any size", "why_tests_cant": "Spectral property of all matrices plus loop bound.", "anchors": ["hvd/utils.py:precondition_hessian"]}
{"id": "C21", "title": "backtracking line search accepts only sufficient decrease", "statement": "backtracking_line_search returns max_step * 2^-k for some 0 <= k <= 6 with at most 6 evaluations of the merit function; if k < 6 the returned step satisfies the sufficient-decrease test (or the merit at the start is already close to eps), and all larger trial steps failed it; the result is positive when the maximum step is.", "quantifier": "for all merit functions, start points and maximum steps", "why_tests_cant": "The merit function is arbitrary.", "anchors": ["hvd/line_search.py:backtracking_line_search"]}
{"id": "C22", "title": "DpN/MMD line search steps stay within their bracket", "statement": "The step returned by the internal line searches is in (0, max_step]; each backtracking step shrinks by a factor between 0.4 and 0.6 (DpN) or exactly 1/2 (MMD), so the result is at least 0.4^8 max_step, respectively 2^-6 max_step, and an accepted step satisfied the sufficient decrease test.", "quantifier": "for all residual functions, steps and maximum steps", "why_tests_cant": "Arbitrary residual functions, NaN fallback of the cubic interpolation.", "anchors": ["hvd/newton.py:DpN._backtracking_line_search", "hvd/mmd_newton.py:MMDNewton._backtracking_line_search_global"]}
{"id": "C23", "title": "State keeps cached quantities in sync with X", "statement": "After State.update(X) the cached objectives, Jacobians, constraint values, constraint gradients and activity flags are those of the functions evaluated at the primal part of X; after update_one(x, k) row k is that of x and all other rows are unchanged and still in sync.", "quantifier": "for all user functions, all populations, all sequences of update/update_one calls", "why_tests_cant": "Arbitrary call sequences and arbitrary user functions.", "anchors": ["hvd/base.py:State.update", "hvd/base.py:State.update_one", "hvd/base.py:State.evaluate", "hvd/base.py:State.eval_cstr"]}
{"id": "C24", "title": "State evaluation counters count evaluations", "statement": "n_jac_evals, n_cstr_jac_evals and n_cstr_hess_evals increase by the number of points evaluated and by nothing else; using a batched implementation instead of the pointwise one changes no cached value.", "quantifier": "for all sequences of updates and all batch functions that agree with the pointwise ones", "why_tests_cant": "All call sequences.", "anchors": ["hvd/base.py:State._count", "hvd/base.py:State.eval_jac", "hvd/base.py:State.update", "hvd/base.py:State.update_one"]}
{"id": "C25", "title": "slicing a State selects the same rows everywhere", "statement": "state[idx] holds exactly the rows idx of X, Y, J, constraint values, gradients, Hessians and activity flags, stays in sync, and later changes to either object do not affect the other.", "quantifier": "for all in-sync states and all index lists", "why_tests_cant": "All index lists and subsequent mutations.", "anchors": ["hvd/base.py:State.__getitem__"]}
{"id": "C26", "title": "is_feasible() agrees with the constraint definition", "statement": "State.is_feasible marks a row True iff every equality value is within 1e-4 of zero and every inequality value is below -1e-4 (rows with an active inequality are reported infeasible, as documented); every row marked feasible passes the feasibility test of check_KKT, but not conversely.", "quantifier": "for all constraint values", "why_tests_cant": "Boundary behaviour for all real values.", "anchors": ["hvd/base.py:State.is_feasible", "hvd/base.py:State.check_KKT"]}
{"id": "C27", "title": "check_KKT() certifies exactly the KKT points", "statement": "check_KKT returns True for a row iff the row is feasible within tolerance and there are convex objective weights, free equality multipliers and non-negative multipliers of active inequalities whose stationarity residual is within tolerance.", "quantifier": "for all Jacobians, constraint data and tolerances, assuming the LP solver returns an optimal solution", "why_tests_cant": "Existence of multipliers is a statement over infinitely many vectors.", "anchors": ["hvd/base.py:State.check_KKT"]}
{"id": "C28", "title": "State.save()/load() round trip", "statement": "State.save(name) writes a file that State.load can read back to an equal state, without destroying an existing file on failure.", "quantifier": "for all states and file names", "why_tests_cant": "All states.", "anchors": ["hvd/base.py:State.save", "hvd/base.py:State.load"]}
{"id": "C29", "title": "HVN partitions the population", "statement": "In each HVN iteration the index sets handed to the Newton step cover every population index exactly once, with infeasible points merged into the first set.", "quantifier": "for all populations and feasibility patterns", "why_tests_cant": "All feasibility patterns and fronts.", "anchors": ["hvd/newton.py:HVN.iterate"]}
{"id": "C30", "title": "duplicate removal keeps one representative per cluster", "statement": "HVN's population check keeps a subset of indices that are pairwise not closer than the tolerance, every removed point is close to a kept one, and nothing is removed if all pairs are separated.", "quantifier": "for all populations", "why_tests_cant": "Greedy loop over all distance matrices.", "anchors": ["hvd/newton.py:HVN._check_population", "hvd/gradient_based.py:Lara"]}
{"id": "C31", "title": "run() performs exactly the requested iterations and logs each once", "statement": "For max_iters = m the optimizers perform exactly m Newton iterations (unless another stop criterion fires), iter_count equals the number of iterations, and every history list has one entry per iteration; run() returns the final population.", "quantifier": "for all m and all problem callbacks", "why_tests_cant": "Loop invariants over all m.", "anchors": ["hvd/newton.py:HVN.run", "hvd/newton.py:HVN.terminate", "hvd/newton.py:HVN.log", "hvd/newton.py:DpN.run", "hvd/newton.py:DpN.log", "hvd/newton.py:DpN.terminate", "hvd/mmd_newton.py:MMDNewton.run"]}
{"id": "C32", "title": "HVN step limiter keeps iterates inside the box", "statement": "If the start point is inside [xl, xu], the step length returned by the maximum-step computation (with limiting on) keeps x + s*step inside the box for all 0 <= s <= that length, and the length is in [0, 1].", "quantifier": "for all boxes, interior points and steps", "why_tests_cant": "All real vectors.", "anchors": ["hvd/newton.py:HVN._compute_max_step_size"]}
{"id": "C33", "title": "DpN box handling keeps iterates inside the box", "statement": "If all points are inside [xl, xu], the (possibly projected) step and step-length bound returned by DpN's box handler keep x + s*step inside the box for every 0 <= s <= bound; repeated DpN iterations never leave the box.", "quantifier": "for all populations, boxes and Newton steps", "why_tests_cant": "All real vectors, zero divisions, projections.", "anchors": ["hvd/newton.py:DpN._handle_box_constraint", "hvd/newton.py:DpN.newton_iteration", "hvd/newton.py:DpN._backtracking_line_search"]}
{"id": "C34", "title": "Lara stays inside the box", "statement": "One Lara iteration maps a population inside [xl, xu] into the box, whatever the gradients are.", "quantifier": "for all populations inside non-degenerate boxes and all directions", "why_tests_cant": "All real vectors, NaN/inf handling.", "anchors": ["hvd/gradient_based.py:Lara.step", "hvd/gradient_based.py:Lara._handle_box_constraint"]}
{"id": "C35", "title": "root-finding residual R vanishes exactly at KKT conditions", "statement": "The residual assembled by the Newton methods is zero iff the gradient of the indicator plus the active-constraint gradients weighted by the multipliers is zero and all active constraints vanish; inactive constraints contribute nothing.", "quantifier": "for all gradients, Jacobians, multipliers and activity masks", "why_tests_cant": "All masks and shapes.", "anchors": ["hvd/newton.py:HVN._compute_R", "hvd/newton.py:DpN._compute_R", "hvd/mmd_newton.py:MMDNewton._compute_R"]}
{"id": "C36", "title": "GD is the p-mean distance to the reference set and its derivative is exact", "statement": "GD(ref).compute(Y) is the p-mean of Euclidean nearest distances (>= 0, zero iff all points lie in ref, invariant under permutations); where nearest points are unique compute_derivatives returns the exact gradient and Hessian of GD^p.", "quantifier": "for all point sets, references and p >= 1", "why_tests_cant": "Limits; all configurations.", "anchors": ["hvd/delta_p.py:GenerationalDistance"]}
{"id": "C37", "title": "IGD value and derivatives agree", "statement": "IGD(ref).compute(Y) is the p-mean of nearest distances from the reference points, and compute_derivatives returns the gradient and Hessian of the same quantity (to the power p), also when matching is used.", "quantifier": "for all point sets and references", "why_tests_cant": "Limits; all configurations.", "anchors": ["hvd/delta_p.py:InvertedGenerationalDistance"]}
{"id": "C38", "title": "MMD is a (pseudo-)distance between point sets", "statement": "MMD.compute is >= 0 for the built-in kernels, 0 when Y and the reference are equal as multisets, invariant under permutations, and symmetric in Y and the reference.", "quantifier": "for all point sets, kernel parameters theta > 0 and dimensions", "why_tests_cant": "Positive definiteness of the kernels over all point sets.", "anchors": ["hvd/mmd.py:rbf", "hvd/mmd.py:laplace", "hvd/mmd.py:rational_quadratic", "hvd/mmd.py:MMD.compute"]}
{"id": "C39", "title": "MMD gradient is exact", "statement": "compute_gradient returns the exact derivative of compute in the objective points (MMDdY) and decision points (MMDdX), although the self-interaction term is skipped.", "quantifier": "for all smooth symmetric kernels with constant diagonal, all point sets", "why_tests_cant": "Limits; all point sets.", "anchors": ["hvd/mmd.py:MMD.compute_gradient", "hvd/mmd.py:MMD.compute_derivatives"]}
{"id": "C40", "title": "MMD Hessian is exact", "statement": "compute_hessian returns the exact second derivative matrix of compute, and it is symmetric.", "quantifier": "for all smooth stationary kernels and point sets", "why_tests_cant": "Limits; index bookkeeping for all sizes.", "anchors": ["hvd/mmd.py:MMD.compute_hessian", "hvd/mmd.py:_assemble_decision_hessian"]}
{"id": "C41", "title": "MMDMatching value and derivatives agree for a fixed matching", "statement": "For a fixed matching, the derivative reported by MMDMatching is the derivative of beta*mean k(y_i,y_j) + mean(2 - 2k(y_i, r_i)).", "quantifier": "for all beta, kernels as above and point sets", "why_tests_cant": "Limits; all sizes.", "anchors": ["hvd/mmd.py:MMDMatching"]}
{"id": "C42", "title": "reference matching is a minimum-cost bijection", "statement": "ReferenceSet.match(Y) pairs each point with a distinct medoid of the component it is assigned to, minimising the total distance, and reference_set lists the matched medoids in the order of Y.", "quantifier": "for all point sets and reference sets (assuming the assignment solver is optimal)", "why_tests_cant": "Optimality over all n! pairings.", "anchors": ["hvd/reference_set.py:ReferenceSet.match", "hvd/reference_set.py:ReferenceSet._match"]}
{"id": "C43", "title": "shifting moves exactly the requested reference points", "statement": "After match, shift(c, idx) moves the matched reference point of each index in idx by c times the unit direction of its component, leaves all others unchanged, and keeps the medoid store and matched list in sync; before match it moves the whole reference set.", "quantifier": "for all index lists, shift lengths and matchings", "why_tests_cant": "All states and index lists.", "anchors": ["hvd/reference_set.py:ReferenceSet.shift", "hvd/reference_set.py:ReferenceSet.set_medoids"]}
{"id": "C44", "title": "components are matched to partitions consistently", "statement": "When a reference set has several components, each partition of Y is matched with the component that the component matching assigned to it.", "quantifier": "for all numbers of components and partitions", "why_tests_cant": "Rectangular assignment cases.", "anchors": ["hvd/reference_set.py:ReferenceSet._match_components"]}
{"id": "C45", "title": "freezing the matching during line search", "statement": "Setting re_match = False on the active indicator during a line search keeps the matched reference points fixed for all trial evaluations.", "quantifier": "for all trial points", "why_tests_cant": "State interplay across objects and calls.", "anchors": ["hvd/newton.py:DpN._backtracking_line_search", "hvd/reference_set.py:ReferenceSet.match"]}
{"id": "C46", "title": "Monte-Carlo hypervolume counts dominated samples", "statement": "hv_monte_carlo(dom, V) equals V times the fraction of samples dominated by at least one point; hvc_monte_carlo with k=1 gives V times the fraction dominated by that point alone; delete(i) keeps hv equal to the estimate for the remaining points on the same samples.", "quantifier": "for all boolean dominance matrices, volumes and sizes", "why_tests_cant": "All matrices; algebraic identity of the HypE weights.", "anchors": ["hvd/moea/sms_emoa.py:alpha", "hvd/moea/sms_emoa.py:hv_monte_carlo", "hvd/moea/sms_emoa.py:hvc_monte_carlo", "hvd/moea/sms_emoa.py:ApproximateMonteCarloHypervolume.delete"]}
{"id": "C47", "title": "SMS-EMOA survival keeps exactly n_survive and respects ranks", "statement": "The survival operator returns exactly min(n_survive, population) distinct individuals; no individual of a worse front survives while one of a better front is discarded.", "quantifier": "for all populations, fronts and contribution values", "why_tests_cant": "All front structures.", "anchors": ["hvd/moea/sms_emoa.py:LeastHypervolumeContributionSurvival._do"]}
{"id": "C48", "title": "binary tournament is feasibility- and dominance-first", "statement": "In each tournament the winner is one of the two contestants; a contestant with strictly smaller constraint violation wins when one is infeasible; among feasible contestants a dominating one wins.", "quantifier": "for all populations and random choices", "why_tests_cant": "All populations/random outcomes.", "anchors": ["hvd/moea/sms_emoa.py:cv_and_dom_tournament"]}
{"id": "C49", "title": "MOEA/D replacement never worsens a subproblem", "statement": "A neighbour is replaced only if the offspring is strictly better under the epsilon-relaxed, feasibility-first comparison, all other individuals are untouched, and the relaxation level decreases to 0 at 80% of the run and stays there.", "quantifier": "for all populations, offspring, neighbourhoods and times", "why_tests_cant": "All inputs and times.", "anchors": ["hvd/moea/moead.py:MOEAD._replace", "hvd/moea/moead.py:MOEAD._cv_eps"]}
{"id": "C50", "title": "get_ref_dirs() enumerates the simplex lattice", "statement": "get_ref_dirs(n_obj, n_points) terminates and returns non-negative directions summing to 1, pairwise distinct, exactly all compositions of the smallest partition number whose lattice has at least n_points points; generic_sphere of them has unit norm.", "quantifier": "for all n_obj >= 2 and n_points", "why_tests_cant": "Combinatorial enumeration for all sizes; termination.", "anchors": ["hvd/problems/utils.py:get_ref_dirs", "hvd/problems/utils.py:generic_sphere"]}
{"id": "C51", "title": "DTLZ objectives satisfy their defining surface identity", "statement": "For DTLZ1 the objectives sum to 0.5(1+g(x)); for DTLZ2-4 (and their equality constrained and inverted variants as applicable) the sum of squares is (1+g(x))^2, with g >= 0; so points with g = 0 lie on the documented Pareto front.", "quantifier": "for all decision vectors in the box, all numbers of objectives >= 2 and variables", "why_tests_cant": "Identity over all real inputs and all numbers of objectives.", "anchors": ["hvd/problems/dtlz.py", "hvd/problems/eqdtlz.py"]}
{"id": "C52", "title": "ZDT documented Pareto fronts are attained", "statement": "For ZDT problems each point returned by get_pareto_front is the objective vector of the decision vector with all distance variables at their optimum, and no decision vector in the box has an objective vector dominating it.", "quantifier": "for all decision vectors in the box and all front sizes", "why_tests_cant": "Optimality over a continuum.", "anchors": ["hvd/problems/zdt.py"]}
{"id": "C53", "title": "boundary constraints encode the box", "statement": "With boundary_constraints=True the added inequality values are all <= 0 iff xl <= x <= xu, user inequalities come unchanged, and the reported number of inequality constraints matches the number of returned values.", "quantifier": "for all x, boxes and user constraints", "why_tests_cant": "All real vectors.", "anchors": ["hvd/problems/base.py:add_boundary_constraints", "hvd/problems/base.py:CMOP"]}
{"id": "C54", "title": "RSG interpolation returns evenly spaced points on the polyline and the requested number", "statement": "The reference set generator returns the requested number Nf of points, each on the polyline through its component, starting and ending at the component's extremes.", "quantifier": "for all fronts, component structures and Nf", "why_tests_cant": "Rounding and degenerate components over all inputs.", "anchors": ["hvd/rsg.py"]}
{"id": "C55", "title": "bootstrapping returns a reference set and shrinks its dominance relaxation", "statement": "bootstrap_reference_set returns the optimizer state and the list of bootstrapped reference sets for every number of iterations and interval, re-bootstrapping exactly at the multiples of the interval.", "quantifier": "for all iteration budgets and intervals", "why_tests_cant": "All budgets, including those that never trigger.", "anchors": ["hvd/bootstrap.py:bootstrap_reference_set"]}
{"id": "C56", "title": "pymoo backend selection is scoped", "statement": "The backend context manager restores the previously active backend on exit, also on exceptions and when nested, and refuses to silently mix two backends.", "quantifier": "for all nestings and failures", "why_tests_cant": "Arbitrary nestings of context managers.", "anchors": ["hvd/problems/_pymoo_factory.py"]}
{"id": "C57", "title": "ideal direction of a component is a non-positive unit vector", "statement": "compute_chim (the direction along which reference points are shifted) returns a unit vector orthogonal to the simplex through the extreme points and with no positive component whenever it is well defined.", "quantifier": "for all extreme-point matrices of full rank", "why_tests_cant": "Linear algebra over all matrices.", "anchors": ["hvd/utils.py:compute_chim"]}
{"id": "C58", "title": "CEC CF/UF index groups cover the distance variables", "statement": "In the UF and CF problems every distance variable x_2..x_n enters exactly one objective's penalty group.", "quantifier": "for all numbers of variables accepted by the constructors", "why_tests_cant": "Index ranges for all n, odd and even.", "anchors": ["hvd/problems/uf.py:_UF2D", "hvd/problems/uf.py:_UF3D", "hvd/problems/cf.py:CF1", "hvd/problems/cf.py:CF10"]}
{"id": "C59", "title": "WFG transformations map [0,1] to [0,1]", "statement": "All WFG shift, bias, reduction and shape functions map admissible inputs in [0,1] into [0,1], so objectives lie in the documented range; the distance optimum (0.35) is a fixed zero of the shift.", "quantifier": "for all x in the box, all n_obj, k, l accepted by the constructor", "why_tests_cant": "Real inequalities over a continuum.", "anchors": ["hvd/problems/wfg.py"]}
{"id": "C60", "title": "Newton step solves the linearised KKT system", "statement": "If the linear system is solvable, the step computed by HVN, DpN and MMDNewton solves the Newton equations of the active-set KKT residual (first-order change of the residual = minus the residual, zero change of inactive multipliers); hence along the step the merit norm satisfies the Armijo condition for every sufficiently small step size.", "quantifier": "for all numbers of points, variables and constraints, all active sets and all indicator and constraint derivatives", "why_tests_cant": "Block assembly, packing and unpacking for all shapes and masks; limit statement over a continuum.", "anchors": ["hvd/newton.py:HVN._compute_netwon_step", "hvd/newton.py:DpN._compute_netwon_step", "hvd/mmd_newton.py:MMDNewton._compute_netwon_step", "hvd/line_search.py:backtracking_line_search"]}
{"id": "C61", "title": "Targets move only when they have been reached", "statement": "In the first iteration every matched target moves by 0.08 along the direction of its component; in later iterations of DpN and MMDNewton exactly the targets of the points that have come to rest at their own target (distance and step numerically zero) move, all other targets stay where they are, and the medoid history records exactly the moved targets.", "quantifier": "for all reference sets, numbers of components and points, iterations, points and steps", "why_tests_cant": "Masks, index translation between flat and per-component storage, all subsets of points.", "anchors": ["hvd/newton.py:DpN._shift_reference_set", "hvd/mmd_newton.py:MMDNewton._shift_reference_set", "hvd/reference_set.py:ReferenceSet.shift"]}
{"id": "C62", "title": "Cleaning of point sets keeps representatives and alignment", "statement": "preprocess_reference_set removes duplicates so that every location keeps a representative, and returns rows of the input; filter_outliers returns aligned decision and objective rows, none of them dominated by a row of the input.", "quantifier": "for all point sets and all scores of the outlier detection", "why_tests_cant": "All sets with any pattern of duplicates and any outcome of the library.", "anchors": ["hvd/utils.py:preprocess_reference_set", "hvd/bootstrap.py:filter_outliers"]}
{"id": "C63", "title": "The UF problems have the fronts they document", "statement": "For UF1 to UF10 the set of attained objective vectors that no attained vector dominates is exactly the set that get_pareto_front samples: the graph of _front for UF1-UF4 and UF7, 21 points for UF5, a point and two segments for UF6, the positive unit sphere for UF8 and UF10, two triangles for UF9; and get_pareto_front returns only points of it, one for every grid point or direction that belongs to it.", "quantifier": "for all numbers of variables the constructor accepts, all decision vectors in the box, all N", "why_tests_cant": "Optimality against all decision vectors of a continuous box, and completeness of the front.", "anchors": ["hvd/problems/uf.py:UF1", "hvd/problems/uf.py:UF5", "hvd/problems/uf.py:UF6", "hvd/problems/uf.py:UF9", "hvd/problems/uf.py:_UF2D.get_pareto_front"]}
{"id": "C64", "title": "The constrained CF problems have the fronts they document", "statement": "For CF1 to CF10 the set of objective vectors attained by feasible decision vectors that no such vector dominates is the documented one: 21 points of a line for CF1, a point and two arcs for CF2 and CF3, three segments for CF4 and CF5, three arcs for CF6 and CF7, five arcs of the unit sphere for CF8, an arc and two sectors of it for CF9 and CF10; and get_pareto_front returns exactly the points of it on the grid.", "quantifier": "for all numbers of variables for which the objectives are defined, all decision vectors in the box, all N and all random draws", "why_tests_cant": "Optimality against all feasible decision vectors of a continuous box; a test compares with the same formula, and hits the small exceptional regions with probability zero.", "anchors": ["hvd/problems/cf.py:CF1.get_pareto_front", "hvd/problems/cf.py:CF2.get_pareto_front", "hvd/problems/cf.py:CF4", "hvd/problems/cf.py:CF6", "hvd/problems/cf.py:CF8.get_pareto_front", "hvd/problems/cf.py:CF9._ieq_constraint", "hvd/problems/cf.py:CF10"]}
{"id": "C65", "title": "The problems of misc.py have the fronts they document", "statement": "The Pareto optimal points of DENT in its box are exactly those of the antidiagonal (the dent does not break the front), those of CONV3 and CONV4 are the convex combinations of the minimisers of the single objectives, those of CONV4_2F form two parts of which neither dominates the other, those of DisConnected form two arcs; get_pareto_front returns only Pareto optimal points. ModifiedObjective preserves dominance.", "quantifier": "for all decision vectors in the box, all numbers of points, all random draws, all numbers of objectives of the modified problem", "why_tests_cant": "Optimality against all decision vectors of a continuous box; exceptional draws have probability zero.", "anchors": ["hvd/problems/misc.py:DENT", "hvd/problems/misc.py:CONV3", "hvd/problems/misc.py:CONV4", "hvd/problems/misc.py:CONV4_2F", "hvd/problems/misc.py:DisConnected", "hvd/problems/misc.py:ModifiedObjective"]}
{"id": "C66", "title": "get_pareto_set of the DTLZ problems returns the Pareto set", "statement": "Every decision vector returned by get_pareto_set of a DTLZ problem (also inverted and constrained) lies in the box, is feasible and is Pareto optimal, there are as many as asked for, and every decision vector of the box is weakly dominated by one that may be drawn.", "quantifier": "for all numbers of objectives and variables, all random draws and all decision vectors of the box", "why_tests_cant": "Optimality and coverage quantify over a continuous box in arbitrary dimension; sampled decision vectors almost never dominate a point near the front.", "anchors": ["hvd/problems/dtlz.py:_DTLZ.get_pareto_set", "hvd/problems/dtlz.py:DTLZ6.get_pareto_set", "hvd/problems/dtlz.py:DTLZ7", "hvd/problems/dtlz.py:DTLZ5._transform_x", "hvd/problems/eqdtlz.py:ConstrainedDTLZ"]}
{"id": "C67", "title": "The adapters to and from pymoo preserve the problem", "statement": "from_pymoo gives a problem with the dimensions, bounds, objectives and constraints of the pymoo problem (plus the box, if asked for), with constraint counts equal to the numbers of constraint values; as_pymoo_problem writes the values of the native problem row by row; and going to pymoo and back gives a problem with the same objectives and constraints.", "quantifier": "for all pymoo problems, all native problems, all decision vectors and both settings of boundary_constraints", "why_tests_cant": "Equality of feasible sets and objectives quantifies over all problems and decision vectors; the failures need problems without bounds, elementwise problems or the composition of both adapters.", "anchors": ["hvd/problems/_pymoo_wrapper.py:_PymooBackedProblem", "hvd/problems/_pymoo_wrapper.py:_PymooProblemAdapter", "hvd/problems/base.py:MOP.from_pymoo", "hvd/problems/base.py:MOP.as_pymoo_problem", "hvd/problems/base.py:CMOP.__init__"]}
{"id": "C68", "title": "The hypervolume and its derivatives return a value on every input", "statement": "hypervolume() terminates without reading the sentinel's cargo and returns a number for every list of points and every reference point, its recursion puts back every node it takes out of the multi-list, and the gradient and Hessian calls return a result for every non-empty population.", "quantifier": "for all numbers of objectives (two or more for the Hessian), all points including ties, duplicates, dominated points and points outside the reference box, all reference points, all ways of breaking ties when sorting, and all list states in which the lists run through the same nodes", "why_tests_cant": "Termination and the absence of None or index errors in a pointer-based recursion with in-place list surgery depend on the order of all coordinates; tests only visit finitely many orders and rarely ties.", "anchors": ["hvd/hypervolume.py:hypervolume", "hvd/hypervolume.py:HyperVolume.hvRecursive", "hvd/hypervolume.py:MultiList.remove", "hvd/hypervolume.py:MultiList.reinsert", "hvd/hypervolume_derivatives.py:HypervolumeDerivatives._compute_gradient", "hvd/hypervolume_derivatives.py:HypervolumeDerivatives._compute_hessian"]}
{"id": "C69", "title": "An iteration of the Hypervolume Newton Method", "statement": "HVN.iterate, started from a non-empty population with points of the right dimension, returns a non-empty population of the same dimension whose cached objectives, Jacobians and constraint data belong to the new points. Exact representatives of the old points are kept, they are split into layers (the non-dominated layers of the feasible points, all infeasible points in the first), and each layer moves along its own Newton step by one common step size from the backtracking rule. Without constraints the Newton step solves the system of the exact first and second derivatives of the layer's hypervolume. With the step limit every iteration returns and all points stay in the box.", "quantifier": "for all problems with consistent callbacks, all populations, numbers of points, variables, objectives and constraints, all solvers, norms and symmetric distances, any number of iterations", "why_tests_cant": "The iteration composes duplicate removal, feasibility, sorting, derivatives, linear algebra and line search over populations of any size; a test observes one trajectory and neither all partitions nor the stationary points at which an array is empty.", "anchors": ["hvd/newton.py:HVN.iterate", "hvd/newton.py:HVN._initialize", "hvd/newton.py:HVN._check_population", "hvd/newton.py:HVN._compute_netwon_step", "hvd/newton.py:HVN._compute_max_step_size", "hvd/newton.py:HVN._get_phi_func", "hvd/newton.py:HVN.run"]}
{"id": "C70", "title": "The indicator that DpN works on", "statement": "With type=\"deltap\" an iteration of DpN works on the larger of the two root mean squares: the generational distance if it exceeds the root of the mean square of the distances to the matched targets, the inverted one otherwise; in particular the choice does not depend on the unit of the objectives. With type \"gd\" or \"igd\" it works on that indicator.", "quantifier": "for all populations, reference sets of one component, numbers of objectives and Euclidean distances", "why_tests_cant": "Tests check that the indicator values decrease; the choice between two indicators only shows for particular magnitudes of the distances.", "anchors": ["hvd/newton.py:DpN.active_indicator", "hvd/newton.py:DpN.curr_indicator_value", "hvd/delta_p.py:GenerationalDistance.compute", "hvd/delta_p.py:InvertedGenerationalDistance.compute"]}
{"id": "C71", "title": "An iteration of the Delta-p Newton method", "statement": "DpN clips the given points to the box and starts with multipliers zero. Every iteration then returns and keeps the number of points: the targets are matched at the smallest total distance, those that have been reached (all in the first iteration) are shifted by 0.05 (0.08) times their direction, the residual of each point is the one of its KKT system for the distance to its target, the direction solves the Newton system of the active constraints with inactive multipliers left alone, a component that leads out of the box is set to zero, the step size is the first of at most nine in a sequence with ratios between 0.4 and 0.6 that meets the Armijo condition, and each point moves by exactly that. Points in the box leave it by at most 1e-8. The Jacobian is evaluated at most nine times per point and iteration.", "quantifier": "for all problems with consistent callbacks and constraints, all populations, numbers of points, variables and objectives, all reference sets, solvers and numbers of iterations", "why_tests_cant": "The iteration composes matching, shifting, derivatives, linear algebra, projection and a line search that itself re-matches the targets; a test observes one trajectory.", "anchors": ["hvd/newton.py:DpN.newton_iteration", "hvd/newton.py:DpN._initialize", "hvd/newton.py:DpN._compute_R", "hvd/newton.py:DpN._compute_netwon_step", "hvd/newton.py:DpN._shift_reference_set", "hvd/newton.py:DpN._backtracking_line_search", "hvd/newton.py:DpN._handle_box_constraint", "hvd/newton.py:DpN.run"]}
{"id": "C72", "title": "An iteration of the MMD Newton method", "statement": "MMDNewton clips the given points to the box and starts with multipliers zero. Every iteration then returns, keeps the number of points and keeps the points in the box: with matching, the reference points are distributed to the points at the smallest total distance and those that have been reached (all in the first iteration) are shifted by 0.08 times their direction; the residual of each point is the one of its KKT system for the partial derivatives of the indicator by the decision points, the direction solves the Newton system of all points with the second derivatives of the indicator, the common step size is found by halving so that the norm of the residual decreases, and each point moves by exactly that.", "quantifier": "for all problems with consistent callbacks and constraints, all smooth stationary kernels, all populations, numbers of points, variables and objectives, all reference sets, solvers and numbers of iterations", "why_tests_cant": "The iteration composes matching, shifting, kernel derivatives, linear algebra and a line search that itself re-matches the targets; a test observes one trajectory, and the cases that leave the box or skip the line search do not occur in the test problems.", "anchors": ["hvd/mmd_newton.py:MMDNewton.newton_iteration", "hvd/mmd_newton.py:MMDNewton._initialize", "hvd/mmd_newton.py:MMDNewton._compute_R", "hvd/mmd_newton.py:MMDNewton._compute_netwon_step", "hvd/mmd_newton.py:MMDNewton._shift_reference_set", "hvd/mmd_newton.py:MMDNewton._backtracking_line_search_global", "hvd/mmd_newton.py:MMDNewton._handle_box_constraint", "hvd/mmd_newton.py:MMDNewton.run"]}
{"id": "C73", "title": "Preconditioned Newton directions improve the indicator", "statement": "With preconditioning and without constraints, small steps along the direction that an iteration computes improve the indicator it optimises unless the gradient vanishes: HVN increases the hypervolume of the layer, DpN decreases the distance of each point to its target, MMDNewton decreases the (matched) MMD. Without preconditioning this need not hold.", "quantifier": "for all problems with consistent callbacks, all populations, numbers of points and variables, reference sets, kernels and solvers, as long as the Hessian has no eigenvalue beyond 8e6", "why_tests_cant": "The sign of the directional derivative depends on the definiteness of the modified Hessian, which the repeated shift has to reach for every indefinite matrix; tests see a few matrices and only the values after complete iterations.", "anchors": ["hvd/utils.py:precondition_hessian", "hvd/newton.py:HVN._compute_netwon_step", "hvd/newton.py:DpN._compute_netwon_step", "hvd/mmd_newton.py:MMDNewton._compute_netwon_step"]}
{"id": "C74", "title": "The gradient method Lara as a whole", "statement": "From any starting population, clipped to the box, every iteration of Lara returns: it removes duplicates, moves all remaining points by one common step size, the largest one up to one that keeps all of them in the box, along minus the sum of their normalised gradients without the components that leave the box at the boundary, and evaluates the new points. The direction improves all objectives at once whenever the box allows that.", "quantifier": "for all problems with consistent callbacks and gradients of non-zero norm, all boxes, starting populations, numbers of points, variables, objectives and iterations", "why_tests_cant": "Whether the direction is one of common descent depends on the angles between all gradients and on which bounds are active, and a step that overshoots shows only as a lack of convergence; tests run a few iterations on a few problems.", "anchors": ["hvd/gradient_based.py:Lara._initialize", "hvd/gradient_based.py:Lara.iteration", "hvd/gradient_based.py:Lara._compute_step", "hvd/gradient_based.py:Lara._handle_box_constraint", "hvd/gradient_based.py:Lara._check_points_uniqueness", "hvd/gradient_based.py:Lara.run"]}
{"id": "C75", "title": "A generation of SMS-EMOA does not lose hypervolume", "statement": "A generation of SMSEMOA on a problem with two objectives and without constraints merges population and offspring, returns as many individuals of them as before, and the hypervolume of the new population with respect to the reference point of the generation (the ideal point plus 1 + eps times the range) is at least that of the old one.", "quantifier": "for all populations, offspring, numbers of individuals, with and without normalisation, and all sortings and contributions that meet the stated contracts", "why_tests_cant": "A loss depends on how close neighbours of a removed individual are and on the order of removals; the runs of tests are random and compare at most final values.", "anchors": ["hvd/moea/sms_emoa.py:SMSEMOA._advance", "hvd/moea/sms_emoa.py:LeastHypervolumeContributionSurvival._do"]}
{"id": "C76", "title": "Floating-point accuracy of the hypervolume", "statement": "hypervolume(points, ref), computed in floating point where each sum, difference and product has a relative error of at most u (no overflow or underflow), returns the exact hypervolume up to the relative error of a number of roundings that depends only on the number of points and of objectives: |result - exact| <= ((1+u)^m - 1) * exact. In particular the result is never negative and is zero only if the exact value is.", "quantifier": "for all point sets on which the algorithm is right in exact arithmetic, all reference points, all rounding functions with unit u, all tie-breakings of the sort, any number of objectives", "why_tests_cant": "Cancellation shows only for unlucky inputs; a test compares a few values with a tolerance and cannot tell a bound that grows slowly with the number of points from one that fails on points that come to tie after rounding.", "anchors": ["hvd/hypervolume.py:hypervolume", "hvd/hypervolume.py:HyperVolume.compute", "hvd/hypervolume.py:HyperVolume.hvRecursive"]}
{"id": "C77", "title": "Local quadratic convergence of HVN", "statement": "Around a nondegenerate stationary population of the Lagrangian (hypervolume of the objectives minus multipliers times active equality constraints, gradient zero, Hessian regular, points mutually nondominated, distinct and in general position) there is a neighbourhood from which run() converges: every iteration returns, takes the full Newton step for every point, keeps the number of points, and the error after n iterations satisfies err <= err0 / 2^n and C err <= (C err0)^(2^n).", "quantifier": "for all problems, all numbers of points, variables, objectives and equality constraints, all such stationary populations, all starts in the neighbourhood, all numbers of iterations", "why_tests_cant": "A test sees a few runs; that the line search accepts full steps, that clustered points and layers do not interfere and that the order is two everywhere near every solution is a statement about neighbourhoods and limits.", "anchors": ["hvd/newton.py:HVN.run", "hvd/newton.py:HVN.iterate", "hvd/newton.py:HVN._compute_netwon_step", "hvd/utils.py:backtracking_line_search"]}
{"id": "C78", "title": "Reading reference sets and populations", "statement": "read_reference_set_data returns data that ReferenceSet can match: every row of the population is in exactly one cluster, no cluster is empty, there are no more clusters than components and none larger than a component; rows that are not outliers are kept as far as there are reference points; shift directions are given for all components or none.", "quantifier": "for all files with any numbers of components, reference points, rows and labels, in which all components can be read", "why_tests_cant": "The branches (missing files, merged components, too few reference points, downsampling) combine with arbitrary labels and sizes; the few files at hand exercise the usual path only.", "anchors": ["scripts/utils.py:read_reference_set_data", "hvd/reference_set.py:ReferenceSet.match"]}
{"id": "C79", "title": "Piecewise curves and their derivatives", "statement": "PiecewiseBS and PiecewiseAnalytical parametrise the union of the pieces over [0,1]: objective(t) is a point of the piece that belongs to t, every point is reached, and jacobian and hessian are the first and second derivative of objective.", "quantifier": "for all lists of pieces, all parameters t", "why_tests_cant": "There are no tests; the derivatives are right for a single piece, and the wrong index appears only for parameters outside of [0,1] or within 1e-8 of zero.", "anchors": ["examples/HVSS/utils.py:PiecewiseBS", "examples/HVSS/components.py:PiecewiseAnalytical", "examples/subset_selection/utils.py:PiecewiseBS"]}
{"id": "C80", "title": "A union of boxes as a constraint", "statement": "union_box_constraint is non-positive in all components exactly if the point is in one of the boxes.", "quantifier": "for all dimensions, all lists of boxes, all points", "why_tests_cant": "The only test prints a value; whether the box with the nearest centre is the right one depends on the arrangement of the boxes.", "anchors": ["examples/HVSS/box_domain.py:union_box_constraint"]}
{"id": "C81", "title": "Populations at rest are stationary", "statement": "An iteration of DpN, MMDNewton or HVN leaves a population (with its multipliers) unchanged if and only if all its points satisfy the first-order optimality conditions of the indicator, including bounds and the signs of the multipliers.", "quantifier": "for all problems, populations, reference sets, and reachable states of the optimisers whose Newton equations are uniquely solvable", "why_tests_cant": "Tests run a fixed number of iterations on benchmarks and never check where the points stop; a point that is stuck in a corner of the box or on an active inequality looks like a converged one.", "anchors": ["hvd/newton.py:DpN.newton_iteration", "hvd/newton.py:DpN._handle_box_constraint", "hvd/newton.py:HVN.iterate", "hvd/mmd_newton.py:MMDNewton.newton_iteration"]}
{"id": "C82", "title": "Polynomial features", "statement": "poly_features(x, degree) returns every monomial of degree one to degree in the features exactly once (with interaction_only every squarefree one), and PolynomialRegression(degree, input_dim) creates as many weights as there are features, so that forward returns for every degree.", "quantifier": "for all numbers of features, all degrees, all inputs over any commutative semiring", "why_tests_cant": "There is no test of the HVSS examples; all scripts use degree two.", "anchors": ["examples/HVSS/base.py:poly_features", "examples/HVSS/base.py:PolynomialRegression"]}
{"id": "C83", "title": "Hand-written problems of the examples", "statement": "The Jacobians and Hessians written by hand in the examples are the derivatives of the functions next to them, and the Pareto sets and reference sets constructed there (segments, projected triangles, rows of a triangle) consist of Pareto-optimal points of the constrained problem.", "quantifier": "for all points, numbers of samples and rows; optimality over all feasible points", "why_tests_cant": "Optimality quantifies over an infinite feasible set; the examples only plot these points.", "anchors": ["examples/HVN/3D_example1.py", "examples/HVN/3D_example2.py", "examples/HVN/EqCon1.py", "examples/HVN/2D_example.py", "examples/HVN/concave_example.py", "examples/HVN/convex_example.py", "examples/DpN/3D_example1.py", "examples/DpN/3D_example2.py", "examples/DpN/2D_example_convex.py", "examples/MMD/MOP1.py"]}
{"id": "C84", "title": "Rounding errors of GD, IGD and MMD", "statement": "The values of GD, IGD and MMD computed in floating-point arithmetic agree with the exact values up to a relative error proportional to the rounding unit times the number of points and objectives, in whatever order sums are formed.", "quantifier": "for all point sets, reference sets, numbers of objectives, rounding functions with relative error u, orders of summation, and the three kernels", "why_tests_cant": "Tests compare a few values with a tolerance; they cannot bound the error for all inputs, and never meet sets so close to each other that the differences cancel.", "anchors": ["hvd/delta_p.py:GenerationalDistance.compute", "hvd/delta_p.py:InvertedGenerationalDistance.compute", "hvd/mmd.py:MMD.compute", "hvd/mmd.py:rbf", "hvd/mmd.py:laplace", "hvd/mmd.py:rational_quadratic"]}
{"id": "C85", "title": "Local quadratic convergence of DpN", "statement": "Around a population of nondegenerate solutions of the first-order conditions for their targets (type gd, igd, or deltap with different values of the two indicators, one component of the reference set, targets unique and not attained, points inside the box, preconditioning off or the Hessian of the indicator positive definite at the solution), there is a neighbourhood from which run() converges after the first iteration: the targets stay, no target is shifted, every point takes the full Newton step, and the error of each point, in its variables and in the multipliers of its active constraints, satisfies err <= err0 / 2^n and C err <= (C err0)^(2^n) after n iterations.", "quantifier": "for all problems with equality and inequality constraints, all numbers of points, variables and objectives, all such populations, all starts in the neighbourhood, all numbers of iterations", "why_tests_cant": "A test sees a few runs; that matching, shift, box and line search never interfere near a solution, and the order of convergence, are statements about all starts and all numbers of iterations.", "anchors": ["hvd/newton.py:DpN.newton_iteration", "hvd/newton.py:DpN._compute_netwon_step", "hvd/newton.py:DpN._backtracking_line_search", "hvd/newton.py:DpN._shift_reference_set", "hvd/newton.py:DpN.run"]}
{"id": "C86", "title": "Local quadratic convergence of MMDNewton", "statement": "Around a population of nondegenerate solutions of the first-order conditions of the (matched) MMD for their targets (targets unique and not attained, preconditioning off or the Hessian of the indicator positive definite at the solution), there is a neighbourhood from which run() converges after the first iteration: the targets stay, all points take the full Newton step, and the error in the variables and in the multipliers of the active constraints is at most a constant times its square after each iteration.", "quantifier": "for all problems with equality and inequality constraints, all kernels that are three times differentiable, all numbers of points, variables and objectives, all such populations, all starts in the neighbourhood, all numbers of iterations", "why_tests_cant": "A test sees a few runs; that the matching, the shift and the line search never interfere near a solution, and the order of convergence, are statements about all starts. Linear convergence with a small factor looks like quadratic convergence in a short run.", "anchors": ["hvd/mmd_newton.py:MMDNewton.newton_iteration", "hvd/mmd_newton.py:MMDNewton._compute_netwon_step", "hvd/mmd_newton.py:MMDNewton._backtracking_line_search_global", "hvd/mmd_newton.py:MMDNewton._shift_reference_set", "hvd/mmd_newton.py:MMDNewton.run"]}
{"id": "C87", "title": "Tables of results", "statement": "The scripts that compare methods over repeated runs mark a row exactly if the corrected Mann-Whitney test of the two samples of this row rejects; the arrow tells which of the two medians is the better one, and the summary counts the marks. The correction is the one named in the caption.", "quantifier": "for all tests (p-values of pairs of samples), all levels, all lists of files (missing ones included), all samples", "why_tests_cant": "The scripts have no tests; their output is a table that looks plausible for every input. A wrong index of a p-value array or a wrong column only shows if somebody recomputes the table.", "anchors": ["scripts/compute_statistics.py:stats_func", "scripts/compute_statistics_MMD.py:stats_func", "scripts/compute_statistics_ICML.py:stats_func", "examples/HVSS/compute_stats.py", "examples/subset_selection/compute_stats.py"]}
{"id": "C88", "title": "Network approximation of a Pareto front", "statement": "For ParetoApproximator the derivatives of the equality constraint (network of linear layers and ReLU, minus the last objective) reported to the optimiser are its derivatives wherever it is differentiable; the inequalities are as many as announced, describe the box [-1,0]^dim within the unit disc, and come with their derivatives.", "quantifier": "for all weights, all numbers of layers and units, all numbers of objectives, all points", "why_tests_cant": "A test differentiates a trained network numerically at a few points. The result of automatic differentiation is wrong exactly at the points where units are at their kinks, a null set that tests miss; that it is only a null set, for all weights, cannot be tested.", "anchors": ["examples/HVSS/base.py:MLP.forward", "examples/HVSS/base.py:ParetoApproximator.eq_constraint", "examples/HVSS/base.py:ParetoApproximator.eq_jacobian", "examples/HVSS/base.py:ParetoApproximator.eq_hessian", "examples/HVSS/base.py:ParetoApproximator._ieq_constraint"]}
{"id": "C89", "title": "Reading spline files", "statement": "read_bspline_csv returns the control points, the knots and the degree written in the file, wherever there are blank lines and blanks; rows of numbers that are no points lead to an error.", "quantifier": "for all files in the format (points, a line knot..., knots in any lines, a line degree..., the degree), all numbers of points and knots", "why_tests_cant": "The function has no tests and skips what it does not understand. A test reads a few files; a dropped row only shows as a slightly different curve.", "anchors": ["examples/HVSS/utils.py:read_bspline_csv", "examples/subset_selection/utils.py:read_bspline_csv"]}
{"id": "C90", "title": "Subset selection", "statement": "The initial points of the subset selection are N different points from different clusters, each nearest to its centre; the reference point lies behind all data; the final points are replaced by a subset of the archive with as many points; the reported values are those of the first and the final population.", "quantifier": "for all data, all results of KMeans and random.sample, all archives, all histories", "why_tests_cant": "The scripts have no tests and depend on random clusterings. Duplicates in the selected subset, a reference point on the wrong side and a value of another population do not raise errors.", "anchors": ["examples/HVSS/run3D_example.py:select_initial_points", "examples/HVSS/run.py:HV_subset_selection", "examples/subset_selection/run.py:HV_subset_selection"]}
{"id": "C91", "title": "Set-up and loop of MOEA/D", "statement": "After _setup the neighbourhood of every subproblem consists of itself and nearest other ones, as many as asked for; next() handles one offspring for every subproblem and ends with the generation; the scripts configure the evolutionary algorithms for two, three and four objectives with directions of the right dimension that fit the population.", "quantifier": "for all sets of directions, all numbers of neighbours, all results of argsort, all numbers of subproblems, all states at the begin of a generation; for all algorithms and numbers of objectives of the scripts", "why_tests_cant": "A neighbourhood without its own subproblem shows only in a slower search; the order of ties depends on the unstable sort. The configuration for four objectives is used by no test.", "anchors": ["hvd/moea/moead.py:ConstraintAwareMOEAD._setup", "hvd/moea/moead.py:ConstraintAwareMOEAD.next", "scripts/run_EA_save_population.py:get_algorithm", "scripts/benchmark_EA.py:get_algorithm"]}
{"id": "C92", "title": "Runs of the evolutionary algorithms in the scripts", "statement": "minimize of run_EA_save_population.py returns the populations of the last six generations with their numbers, for MOEA/D too; the number of generations of benchmark_EA.py corresponds to 3.215 times the Jacobian calls of the Newton method up to rounding; the runs of benchmark_EA.py that have a result and numbers as indicator values give their rows and the other ones are left out; every problem of benchmark_EA.py has a reference point of its dimension, and the fronts are below it in every objective.", "quantifier": "for all algorithms that count their generations, all numbers of generations and subproblems, all numbers of Jacobian calls and population sizes, all lists of results, all problems of the script", "why_tests_cant": "The scripts run for hours on a cluster and are not tested. A run without a feasible solution is rare, and then ends the whole experiment.", "anchors": ["scripts/run_EA_save_population.py:minimize", "scripts/benchmark_EA.py:minimize", "scripts/benchmark_EA.py:get_reference_point", "hvd/moea/moead.py:ConstraintAwareMOEAD.next"]}
{"id": "C93", "title": "Cubic splines as equality constraints", "statement": "pareto_front_approx of the examples of subset selection returns the value of the piecewise cubic with its first and second derivative at every point from the first to the last break; h_Jacobian is the gradient of the constraint h and h_Hessian the derivative of h_Jacobian, also where the variables are scaled.", "quantifier": "for all tables of coefficients and increasing breaks, all points", "why_tests_cant": "The tables are not in the repository and the examples have no tests. A wrong derivative of the constraint only slows the Newton method down, and the wrong value occurs at the last break only.", "anchors": ["examples/subset_selection/ZDT1/spline.py:pareto_front_approx", "examples/subset_selection/Dent/spline.py:pareto_front_approx", "examples/subset_selection/TwoOnOne/spline.py:component1", "examples/subset_selection/ZDT1/example.py:h_Jacobian", "examples/subset_selection/TwoOnOne/example.py:h_jac"]}
{"id": "C94", "title": "The component of a point", "statement": "match_cluster of benchmark_CONV4.py matches every point with a component of the reference set; a point that belongs to exactly one component is matched with it.", "quantifier": "for all populations and all reference sets with at least one component, none of them empty", "why_tests_cant": "The function is not tested. For components far apart the result is right, so the wrong direction of the Hausdorff distance shows up for long components only.", "anchors": ["scripts/benchmark_CONV4.py:match_cluster"]}
