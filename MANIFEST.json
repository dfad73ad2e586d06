{
 "claims": [
  {
   "property": "C01",
   "status": "partial",
   "theorems": [
    "Verif.Props.C01_three_objectives",
    "Verif.Props.C01_any_objectives_partial",
    "Verif.Props.C01_violated",
    "Verif.Props.C01_violated_ties",
    "Verif.Props.C01_violated_nondominated",
    "Verif.Props.C01_violated_touching",
    "Verif.Props.C01_four_objectives_partial"
   ],
   "note": "Exact for all inputs with 1-3 objectives, and with 4 for different mutually non-dominated points. For any number of objectives exact if no two relevant points agree in objectives 0, 1 and 2 or tie in one of 3..d-2, and (d >= 7 only) lie strictly below the reference. Without that the code is wrong (witnesses in 4, 5 and 7 objectives). Exact arithmetic instead of floats; |values| within 1e308."
  },
  {
   "property": "C02",
   "status": "partial",
   "theorems": [
    "Verif.Props.C02_three_objectives",
    "Verif.Props.C02_any_objectives_partial",
    "Verif.Props.C02_violated"
   ],
   "note": "Proved for 1-3 objectives; for more under the same condition as C01. Violated in 4 objectives: swapping two rows changes 8 to 10."
  },
  {
   "property": "C03",
   "status": "partial",
   "theorems": [
    "Verif.Props.C03_monotone_three_objectives",
    "Verif.Props.C03_monotone_any_objectives_partial",
    "Verif.Props.C03_outside",
    "Verif.Props.C03_dominated_three_objectives",
    "Verif.Props.C03_dominated_any_objectives_partial",
    "Verif.Props.C03_box_three_objectives",
    "Verif.Props.C03_box_any_objectives_partial",
    "Verif.Props.C03_violated"
   ],
   "note": "Points outside the reference box never matter (any dimension). The rest for 1-3 objectives, and for more under the condition of C01. Violated in 4 objectives: adding a dominated point lowers 10 to 8."
  },
  {
   "property": "C04",
   "status": "proved",
   "theorems": [
    "Verif.Props.C04_translation",
    "Verif.Props.C04_scaling",
    "Verif.Props.C04_scaling_three_objectives"
   ],
   "note": "Translation for all inputs and dimensions. Scaling for all inputs and dimensions (C04_scaling), also where the value itself is wrong (C01), if the sort depends on the order of the values only, as sorting by comparisons does (ComparisonSort); for 1-3 objectives for every sort (C04_scaling_three_objectives). Exact arithmetic; distances to the reference below 1e308."
  },
  {
   "property": "C05",
   "status": "partial",
   "theorems": [
    "Verif.Props.C05_three_objectives",
    "Verif.Props.C05_any_objectives_partial",
    "Verif.Props.C05_violated"
   ],
   "note": "Proved for 1-3 objectives; for more under the condition of C01. Violated in 4 objectives: an improvement of -2."
  },
  {
   "property": "C06",
   "status": "partial",
   "theorems": [
    "Verif.Props.C06_three_objectives",
    "Verif.Props.C06_any_objectives_partial",
    "Verif.Props.C06_violated"
   ],
   "note": "Proved for 1-3 objectives; for more under the condition of C01. Violated in 4 objectives."
  },
  {
   "property": "C07",
   "status": "proved",
   "theorems": [
    "Verif.Props.C07_partition",
    "Verif.Props.C07_rejects",
    "Verif.Props.C07_decisions",
    "Verif.Props.depth_ok"
   ],
   "note": "All inputs; the recursion depth is bounded by (D-1)(log2 n+2)+log2 n+1, so no RecursionError for a limit above that. Both output modes."
  },
  {
   "property": "C08",
   "status": "proved",
   "theorems": [
    "Verif.Props.C08_front_zero",
    "Verif.Props.C08_front_succ",
    "Verif.Props.C08_longest_chain"
   ],
   "note": "All inputs with at least two objectives (values from any linear order, i.e. no NaN)."
  },
  {
   "property": "C09",
   "status": "proved",
   "theorems": [
    "Verif.Props.C09_reorder",
    "Verif.Props.C09_equal_rows",
    "Verif.Props.C09_monotone"
   ],
   "note": "Reordering and repeating rows, equal rows, strictly increasing transformations of each objective."
  },
  {
   "property": "C10",
   "status": "proved",
   "theorems": [
    "Verif.Props.C10_dominance",
    "Verif.Props.C10_irreflexive",
    "Verif.Props.C10_asymmetric",
    "Verif.Props.C10_transitive"
   ],
   "note": "All vectors of any length."
  },
  {
   "property": "C11",
   "status": "partial",
   "theorems": [
    "Verif.Props.C11_nodup_partial",
    "Verif.Props.C11_any_partial",
    "Verif.Props.C11_violated",
    "Verif.Props.C11_violated_error",
    "Verif.Props.C11_strict_mode_partial",
    "Verif.Props.C11_strict_mode_violated",
    "Verif.Props.C11_strict_mode_exact"
   ],
   "note": "Holds for inputs without duplicate rows. With duplicates all copies of a non-dominated row are dropped, and if nothing is left the call fails."
  },
  {
   "property": "C12",
   "status": "proved",
   "theorems": [
    "Verif.Props.C12_gradient"
   ],
   "note": "Any number of points and objectives, general position, differences below 1e308, recursion limit as in C07."
  },
  {
   "property": "C13",
   "status": "partial",
   "theorems": [
    "Verif.Props.C13_other_objectives_partial",
    "Verif.Props.C13_any_objectives_partial",
    "Verif.Props.C13_entries_partial",
    "Verif.Props.C13_violated",
    "Verif.Props.C13_witness",
    "Verif.Props.C13_violated_every_dimension",
    "Verif.Props.C13_violated_neighbours"
   ],
   "note": "The code violates the property, with every number of objectives (a single point beyond the reference in the first objective). With two objectives it also spoils rows of points inside the box: (3,0), (1,1), reference (2,2) give (1,1) the row (-1,-2), the gradient is (-1,-1). Proved from three objectives on: an entry is zero when the point is beyond the reference in another objective; where no values coincide, an entry of an objective in which the point is below the reference is the partial derivative, wherever the other points are; and which of the remaining entries are wrong."
  },
  {
   "property": "C14",
   "status": "partial",
   "theorems": [
    "Verif.Props.C14_five_objectives_partial",
    "Verif.Props.C14_any_objectives_partial",
    "Verif.Props.C14_witness",
    "Verif.Props.C14_violated",
    "Verif.Props.C14_violated_six",
    "Verif.Props.C14_violated_seven"
   ],
   "note": "Proved for 2 to 5 objectives and any number of points, for every argsort that meets its contract. That is the limit: with 6 and 7 objectives there is an argsort (equal values in reverse order) for which an entry is positive where the second derivative is not (C14_violated_six, C14_violated_seven), and with 8 objectives a stable one (C14_violated): the clipped projected points have ties, on which the hypervolume code is not exact. For 6 and more objectives proved under the condition CrossExact (the hypervolume code is exact on those points). Not settled: 6 and 7 objectives with a stable argsort."
  },
  {
   "property": "C15",
   "status": "proved",
   "theorems": [
    "Verif.Props.C15_gradient",
    "Verif.Props.C15_hessian",
    "Verif.Props.C15_gradient_derivative",
    "Verif.Props.C15_hessian_derivative_partial"
   ],
   "note": "The chain rule for any number of points, variables and objectives (C15_gradient, C15_hessian). In addition HVdX (any number of objectives) and HVdX2 (two to five objectives) are shown to be the derivatives of X -> HV(f(X))."
  },
  {
   "property": "C16",
   "status": "partial",
   "theorems": [
    "Verif.Props.C16_without_Y_partial",
    "Verif.Props.C16_violated",
    "Verif.Props.C16_compute_witness",
    "Verif.Props.C16_sign_violated",
    "Verif.Props.C16_sign_witness"
   ],
   "note": "The code violates the property: a given Y is not negated although the reference is, HVdY of the Hessian call is the negative of that of the gradient call, and a given Jacobian is not negated. Proved: what holds when no Y is given."
  },
  {
   "property": "C17",
   "status": "proved",
   "theorems": [
    "Verif.Props.C17_unpack_pack",
    "Verif.Props.C17_pack_unpack"
   ],
   "note": "both versions of Nd_vector_to_matrix; all N > 0, sizes and masks"
  },
  {
   "property": "C18",
   "status": "partial",
   "theorems": [
    "Verif.Props.C18_violated",
    "Verif.Props.C18_witness",
    "Verif.Props.C18_reflect_partial",
    "Verif.Props.C18_mirror",
    "Verif.Props.C18_unbounded"
   ],
   "note": "violated when the number of points equals the dimension and the bounds differ; proved in all other cases"
  },
  {
   "property": "C19",
   "status": "proved",
   "theorems": [
    "Verif.Props.C19_setBounds",
    "Verif.Props.C19_string"
   ],
   "note": "eval of a string bound is a parameter"
  },
  {
   "property": "C20",
   "status": "proved",
   "theorems": [
    "Verif.Props.C20_precondition",
    "Verif.Props.C20_range",
    "Verif.Props.exists_isCholesky"
   ],
   "note": "scipy cholesky is a parameter with the contract IsCholesky"
  },
  {
   "property": "C21",
   "status": "proved",
   "theorems": [
    "Verif.Props.C21_lineSearch"
   ],
   "note": "arbitrary merit function, exact arithmetic"
  },
  {
   "property": "C22",
   "status": "partial",
   "theorems": [
    "Verif.Props.C22_dpn_violated",
    "Verif.Props.C22_dpn_witness",
    "Verif.Props.C22_dpn_partial",
    "Verif.Props.C22_interpolating",
    "Verif.Props.C22_mmd_violated",
    "Verif.Props.C22_mmd_partial"
   ],
   "note": "violated by the early return of step length 1; proved when the early return is not taken; the cubic formula is an arbitrary function that may be NaN"
  },
  {
   "property": "C23",
   "status": "proved",
   "theorems": [
    "Verif.Props.C23_sync",
    "Verif.Props.C23_hessian",
    "Verif.Props.C23_update",
    "Verif.Props.C23_updateOne",
    "Verif.Props.C23_stale_hessian",
    "Verif.Props.C23_wrong_size"
   ],
   "note": "Every sequence of update/update_one calls, arbitrary callbacks whose batch variants agree with the pointwise functions. Constraint Hessians are in sync iff every update computes them; with compute_hessian=False the old ones are kept (C23_stale_hessian)."
  },
  {
   "property": "C24",
   "status": "proved",
   "theorems": [
    "Verif.Props.C24_counters",
    "Verif.Props.C24_batch"
   ],
   "note": "Counters for every call sequence; batch variants change neither values nor counters (non-empty populations)."
  },
  {
   "property": "C25",
   "status": "proved",
   "theorems": [
    "Verif.Props.C25_rows",
    "Verif.Props.C25_defined",
    "Verif.Props.C25_no_jacobian",
    "Verif.Props.C25_independent"
   ],
   "note": "Row selection and sync on the value model; independence on a heap model with arbitrary interleavings of calls. Slicing raises if the Jacobians were not computed (C25_no_jacobian)."
  },
  {
   "property": "C26",
   "status": "proved",
   "theorems": [
    "Verif.Props.C26_feasible",
    "Verif.Props.C26_implies_KKT_feasible",
    "Verif.Props.C26_active_infeasible"
   ],
   "note": "Exact arithmetic; tolerance 1e-4 as a rational number."
  },
  {
   "property": "C27",
   "status": "proved",
   "theorems": [
    "Verif.Props.C27_check_KKT",
    "Verif.Props.C27_errors",
    "Verif.Opt.LP.exists_optimal"
   ],
   "note": "The LP solver is a parameter with the contract SolvesLP (reported solutions are optimal, programs with an optimal solution are solved). That the program has an optimal solution is proved by Fourier-Motzkin elimination. Exact arithmetic, no non-finite numbers."
  },
  {
   "property": "C28",
   "status": "partial",
   "theorems": [
    "Verif.Props.C28_save_raises",
    "Verif.Props.C28_violated",
    "Verif.Props.C28_round_trip_partial"
   ],
   "note": "The property is false: save always raises KeyError for '_jac' after emptying the file. Partial: the round trip for dictionaries that contain all deleted keys."
  },
  {
   "property": "C29",
   "status": "proved",
   "theorems": [
    "Verif.Props.C29_partition"
   ],
   "note": "non_domin_sort contributes its theorem C07; also: no set is empty, no feasible point dominates another feasible one of its set. Needs at least two objectives and sufficient recursion depth."
  },
  {
   "property": "C30",
   "status": "proved",
   "theorems": [
    "Verif.Props.C30_duplicates",
    "Verif.Props.C30_eps_irrelevant"
   ],
   "note": "The effective tolerance is 1e-8: the relative tolerance eps multiplies zero. The distance matrix is an arbitrary symmetric nonnegative matrix."
  },
  {
   "property": "C31",
   "status": "proved",
   "theorems": [
    "Verif.Props.C31_run",
    "Verif.Props.C31_default",
    "Verif.Props.C31_second_run",
    "Verif.Props.C31_infinite"
   ],
   "note": "All four loops; what an iteration does is a parameter (exceptions inside an iteration end run() and are not modelled). With the default max_iters=inf the loop never ends; xtol is unused. The logged indicator value is the one before the iteration."
  },
  {
   "property": "C32",
   "status": "partial",
   "theorems": [
    "Verif.Props.C32_partial",
    "Verif.Props.C32_tight",
    "Verif.Props.C32_zero_step",
    "Verif.Props.C32_violated"
   ],
   "note": "Violated for a zero step: np.min of an empty array raises. Proved for all other steps."
  },
  {
   "property": "C33",
   "status": "partial",
   "theorems": [
    "Verif.Props.C33_handler",
    "Verif.Props.C33_projection",
    "Verif.Props.C33_wrong_projection",
    "Verif.Props.C33_iteration",
    "Verif.Props.C33_partial",
    "Verif.Props.C33_excursion",
    "Verif.Props.C33_violated"
   ],
   "note": "The handler itself is right. Repeated iterations leave the box by up to 1e-8 when all entries of the step are close to zero, because the line search is then skipped and the step length is one; proved for runs in which this does not happen."
  },
  {
   "property": "C34",
   "status": "partial",
   "theorems": [
    "Verif.Props.C34_partial",
    "Verif.Props.C34_violated"
   ],
   "note": "Violated if a gradient vanishes (0/0). Proved if no gradient has norm zero."
  },
  {
   "property": "C35",
   "status": "proved",
   "theorems": [
    "Verif.Props.C35_constrained",
    "Verif.Props.C35_unconstrained"
   ],
   "note": "HVN, DpN and MMDNewton; the three matrices agree."
  },
  {
   "property": "C36",
   "status": "partial",
   "theorems": [
    "Verif.Props.C36_value",
    "Verif.Props.C36_zero",
    "Verif.Props.C36_permutation",
    "Verif.Props.C36_gradient",
    "Verif.Props.C36_gradient_nan",
    "Verif.Props.C36_hessian_error",
    "Verif.Props.C36_hessian",
    "Verif.Props.C36_violated_hessian",
    "Verif.Props.C36_violated_gradient"
   ],
   "note": "Value, zero iff in the set, permutations and gradient hold for all p as stated. The Hessian is exact for p = 2 only (C36_hessian); C36_hessian_error gives the exact error for every p and C36_violated_hessian a witness (36 instead of 48 for p = 4). For p < 2 a point in the reference set gives NaN although GD^p is differentiable for p > 1 (C36_violated_gradient)."
  },
  {
   "property": "C37",
   "status": "partial",
   "theorems": [
    "Verif.Props.C37_value",
    "Verif.Props.C37_partial",
    "Verif.Props.C37_error",
    "Verif.Props.C37_value_matching",
    "Verif.Props.C37_matching_partial",
    "Verif.Props.C37_violated_p",
    "Verif.Props.C37_violated_matching"
   ],
   "note": "Values as stated. Derivatives agree for p = 2 without matching (C37_partial). They ignore p (C37_violated_p, 4 instead of 32), and with matching they are N times the derivatives of the value (C37_matching_partial, C37_violated_matching)."
  },
  {
   "property": "C38",
   "status": "proved",
   "theorems": [
    "Verif.Props.C38_value",
    "Verif.Props.C38_psd",
    "Verif.Props.C38_nonneg",
    "Verif.Props.C38_permutation",
    "Verif.Props.C38_zero",
    "Verif.Props.C38_symmetric",
    "Verif.Props.C38_kernels_symmetric"
   ],
   "note": "Exact real arithmetic. Positive semidefiniteness of the three built-in kernels is proved for all point families, theta > 0 and alpha > 0."
  },
  {
   "property": "C39",
   "status": "proved",
   "theorems": [
    "Verif.Props.C39_gradient",
    "Verif.Props.C39_kernels",
    "Verif.Props.C39_laplace"
   ],
   "note": "The automatic derivatives of the kernel are assumed exact (Kernel.DiffAt; autodiff satisfies it). The Laplace kernel is only differentiable where all coordinates differ."
  },
  {
   "property": "C40",
   "status": "proved",
   "theorems": [
    "Verif.Props.C40_hessian",
    "Verif.Props.C40_kernels"
   ],
   "note": "The automatic derivatives of the kernel are assumed exact (Kernel.Diff2At). The code takes the transposed mixed block, which is only right for kernels such as stationary ones; the property is about those."
  },
  {
   "property": "C41",
   "status": "proved",
   "theorems": [
    "Verif.Props.C41_value",
    "Verif.Props.C41_derivatives"
   ],
   "note": "For a fixed matching, symmetric stationary kernels, exact automatic derivatives."
  },
  {
   "property": "C42",
   "status": "proved",
   "theorems": [
    "Verif.Props.C42_match",
    "Verif.Props.C42_one_component",
    "Verif.Props.C42_partition",
    "Verif.Props.C42_defined",
    "Verif.Props.C42_given",
    "Verif.Props.C42_closest"
   ],
   "note": "Contracts of linear_sum_assignment and KMedoids assumed (MatchEnv.Sound; bruteEnv_sound shows they can be met). Given clusters Y_idx are assumed to be a partition of the indices. C42_given and C42_closest: when matching with several components succeeds."
  },
  {
   "property": "C43",
   "status": "proved",
   "theorems": [
    "Verif.Props.C43_match_synced",
    "Verif.Props.C43_shift",
    "Verif.Props.C43_shift_nodup",
    "Verif.Props.C43_shift_all",
    "Verif.Props.C43_shift_error",
    "Verif.Props.C43_shift_unmatched"
   ],
   "note": "A repeated index shifts its point several times (C43_shift). Negative indices are not modelled. Synced is established by match and kept by shift."
  },
  {
   "property": "C44",
   "status": "partial",
   "theorems": [
    "Verif.Props.C44_partial",
    "Verif.Props.C44_violated",
    "Verif.Props.C44_too_many"
   ],
   "note": "Holds if there are as many parts as components, which is always so unless Y_idx is given. With fewer parts the row numbers of the rectangular assignment are dropped and the wrong components are used (C44_violated)."
  },
  {
   "property": "C45",
   "status": "partial",
   "theorems": [
    "Verif.Props.C45_ref_partial",
    "Verif.Props.C45_partial",
    "Verif.Props.C45_violated"
   ],
   "note": "Violated: the flag is set on the indicator, but match reads the flag of the ReferenceSet (C45_violated). With one component the points are only reordered (C45_partial); with the flag of the reference set itself off, nothing changes (C45_ref_partial)."
  },
  {
   "property": "C46",
   "status": "partial",
   "theorems": [
    "Verif.Props.C46_hv_partial",
    "Verif.Props.C46_hvc_partial",
    "Verif.Props.C46_hype_partial",
    "Verif.Props.C46_delete_partial",
    "Verif.Props.C46_violated_exclusive",
    "Verif.Props.C46_violated_jit"
   ],
   "note": "Proved for the undecorated functions with n_exclusive = 1 (the default), for every dominance matrix with at least one sample: hv, the contributions and the state after delete. As decorated (jax.jit, assumed to trace N and k) every call raises; with n_exclusive = 2 delete breaks hv (witness)."
  },
  {
   "property": "C47",
   "status": "proved",
   "theorems": [
    "Verif.Props.C47_survival",
    "Verif.Props.C47_least",
    "Verif.Props.C47_no_number"
   ],
   "note": "For fronts meeting the contract of the non-dominated sorting (disjoint, in range, enough ranked) and hypervolume objects with one contribution per member. n_survive = None is a TypeError in the code and excluded."
  },
  {
   "property": "C48",
   "status": "proved",
   "theorems": [
    "Verif.Props.C48_tournament",
    "Verif.Props.C48_all",
    "Verif.Props.C48_binary"
   ],
   "note": "For all populations, rows and coin flips, given the contract of Dominator.get_relation (RelSound). Rows that are not pairs raise."
  },
  {
   "property": "C49",
   "status": "proved",
   "theorems": [
    "Verif.Props.C49_replace",
    "Verif.Props.C49_strict",
    "Verif.Props.C49_eps",
    "Verif.Props.C49_eps_none"
   ],
   "note": "Replacement exactly if strictly better; needs at least one neighbour (the maximum over none raises) and neighbours in range. Relaxation: starts at max_cv, antitone, 0 from perc_eps_until on, positive before if max_cv > 0."
  },
  {
   "property": "C50",
   "status": "proved",
   "theorems": [
    "Verif.Props.C50_enumerates",
    "Verif.Props.C50_simplex",
    "Verif.Props.C50_sphere",
    "Verif.Props.C50_one_objective",
    "Verif.Props.C50_number"
   ],
   "note": "For all n_obj >= 2 and every n_points (also none, zero, negative): termination, smallest partition number, exact set without repetition, number of directions, sum 1, unit norm. With one objective and more than one point asked for the loop never ends (C50_one_objective, outside the quantifier)."
  },
  {
   "property": "C51",
   "status": "partial",
   "theorems": [
    "Verif.Props.C51_dtlz1",
    "Verif.Props.C51_sphere",
    "Verif.Props.C51_length",
    "Verif.Props.C51_gSphere",
    "Verif.Props.C51_gRastrigin",
    "Verif.Props.C51_optimal1",
    "Verif.Props.C51_optimal",
    "Verif.Props.C51_attained1",
    "Verif.Props.C51_attained",
    "Verif.Props.C51_front1",
    "Verif.Props.C51_front",
    "Verif.Props.C51_inverted1",
    "Verif.Props.C51_inverted",
    "Verif.Props.C51_violated_inverted",
    "Verif.Props.C51_violated_dtlz6",
    "Verif.Props.C51_constraint"
   ],
   "note": "DTLZ1-4 in full: identities, g >= 0 with its zeros, documented front attained and not dominated. Inverted variants: identities proved, but the documented front of IDTLZ2 is dominated (witness). DTLZ6: g >= k/1000 everywhere. The equality constraint vanishes on two spheres, not on the one of radius 0.4. DTLZ7 is in C66."
  },
  {
   "property": "C52",
   "status": "partial",
   "theorems": [
    "Verif.Props.C52_zdt1_partial",
    "Verif.Props.C52_zdt2",
    "Verif.Props.C52_zdt3_partial",
    "Verif.Props.C52_zdt4_partial",
    "Verif.Props.C52_zdt6_partial",
    "Verif.Props.C52_zdt6_gap",
    "Verif.Props.C52_linspace",
    "Verif.Props.C52_violated_zero",
    "Verif.Props.C52_violated_zdt3",
    "Verif.Props.C52_violated_zdt6"
   ],
   "note": "ZDT2 in full. ZDT1, ZDT4: attained and not dominated for f1 > 1e-12. ZDT3: attained and not dominated on the documented regions up to 1e-9 at their ends; the documented start of the fourth region is dominated by the end of the third one (rounding). At f1 = 0 the documented point (0,1) of ZDT1, ZDT3, ZDT4 is dominated by the objectives of the zero vector because of _EPS. ZDT6: no decision vector attains any documented front point; all documented first objectives are attained, but the smallest second objective there is between 0.009 and 0.018 above the documented one, since the fourth root of _EPS = 1e-12 is 0.001."
  },
  {
   "property": "C53",
   "status": "proved",
   "theorems": [
    "Verif.Props.C53_init",
    "Verif.Props.C53_boundary",
    "Verif.Props.C53_plain",
    "Verif.Props.C53_scalar"
   ],
   "note": "For user constraints that return a vector with the declared number of values (all problems of the repository do). A user constraint returning an array without axes raises when combined with boundary constraints (C53_scalar)."
  },
  {
   "property": "C54",
   "status": "partial",
   "theorems": [
    "Verif.Props.C54_interpolate",
    "Verif.Props.C54_constant",
    "Verif.Props.C54_few",
    "Verif.Props.C54_rsg_partial",
    "Verif.Props.C54_one",
    "Verif.Props.C54_violated_objectives",
    "Verif.Props.C54_violated_noise",
    "Verif.Props.C54_violated_count",
    "Verif.Props.C54_violated_short",
    "Verif.Props.C54_violated_copies"
   ],
   "note": "Interpolation of one component is right for at least two wanted points. RSG as a whole returns points on the polylines, within half the number of components of Nf; not Nf in general, and it raises for short components, for components of copies, and for other than two objectives."
  },
  {
   "property": "C55",
   "status": "partial",
   "theorems": [
    "Verif.Props.C55_returned",
    "Verif.Props.C55_returns_partial",
    "Verif.Props.C55_violated_short",
    "Verif.Props.C55_violated_inf",
    "Verif.Props.C55_relax"
   ],
   "note": "Reference sets exactly at the positive multiples of the interval, in order, the last one returned; the weight shrinks by 0.8 each time. Violated when there are not more iterations than the interval (raises at the end), for an unbounded number of iterations and for interval 0."
  },
  {
   "property": "C56",
   "status": "partial",
   "theorems": [
    "Verif.Props.C56_restores_partial",
    "Verif.Props.C56_nested_partial",
    "Verif.Props.C56_violated",
    "Verif.Props.C56_scoped",
    "Verif.Props.C56_factory"
   ],
   "note": "Restored from every other backend, on exceptions, and for all nestings of programs that switch only through the context manager. Violated when JAX is active before and the body activates another backend (C56_violated)."
  },
  {
   "property": "C57",
   "status": "partial",
   "theorems": [
    "Verif.Props.C57_unit",
    "Verif.Props.C57_orthogonal_partial",
    "Verif.Props.C57_two",
    "Verif.Props.C57_violated"
   ],
   "note": "A unit vector without positive components for every matrix. Orthogonal for two objectives, and in general if the normal of the simplex has one sign; otherwise the entrywise absolute value breaks orthogonality (C57_violated, three objectives)."
  },
  {
   "property": "C58",
   "status": "partial",
   "theorems": [
    "Verif.Props.C58_uf2d",
    "Verif.Props.C58_uf3d",
    "Verif.Props.C58_cf10",
    "Verif.Props.C58_cf_partial",
    "Verif.Props.C58_violated",
    "Verif.Props.C58_clamped"
   ],
   "note": "Holds for UF1-UF10, CF8-CF10 and for CF1-CF7 with an even number of variables; violated by CF1-CF7 for every odd number of variables."
  },
  {
   "property": "C59",
   "status": "proved",
   "theorems": [
    "Verif.Props.C59_shifts",
    "Verif.Props.C59_biases",
    "Verif.Props.C59_reductions",
    "Verif.Props.C59_shapes",
    "Verif.Props.C59_range",
    "Verif.Props.C59_optimal",
    "Verif.Props.C59_front",
    "Verif.Props.C59_violated_wfg2"
   ],
   "note": "Every shift, bias, reduction and shape maps the unit interval to itself; for all accepted parameters and all points of the box the objectives are in [0, 1+2m]; 0.35 is the only zero of the linear shift. Beyond the property: the points of get_pareto_set are Pareto optimal for all problems but WFG2 (witness of a dominated one), and WFG4-9 have the front sum (f_m/2m)^2 = 1. Over the reals."
  },
  {
   "property": "C60",
   "status": "partial",
   "theorems": [
    "Verif.Props.C60_hvn",
    "Verif.Props.C60_dpn",
    "Verif.Props.C60_armijo",
    "Verif.Props.C60_mmd_partial",
    "Verif.Props.C60_mmd_linear_partial",
    "Verif.Props.C60_violated_mmd"
   ],
   "note": "Proved for HVN and DpN. Violated by MMDNewton, which leaves the curvature of the constraints out of the matrix: its step solves the equations without that term, and there is a point where its step increases the norm of the residual at every positive step size; it meets the property if the active constraints are linear or their multipliers vanish. Without preconditioning. The linear solver is a parameter: it returns a solution of a square system if there is one."
  },
  {
   "property": "C61",
   "status": "partial",
   "theorems": [
    "Verif.Props.C61_dpn_first",
    "Verif.Props.C61_dpn_later",
    "Verif.Props.C61_mmd_first",
    "Verif.Props.C61_mmd_later_partial",
    "Verif.Props.C61_unmatched_partial",
    "Verif.Props.C61_violated_mmd",
    "Verif.Props.C61_violated_unmatched"
   ],
   "note": "Holds for DpN. MMDNewton tests the distance to the closest of all targets, so targets that are not reached move; without matching every reference point moves in every iteration. Both negations proved."
  },
  {
   "property": "C62",
   "status": "partial",
   "theorems": [
    "Verif.Props.C62_rows",
    "Verif.Props.C62_duplicates_partial",
    "Verif.Props.C62_violated_few",
    "Verif.Props.C62_violated_copies",
    "Verif.Props.C62_filter"
   ],
   "note": "Rows and alignment proved. The removal of duplicates removes all copies, or nothing if at most 50 rows are left; both negations proved."
  },
  {
   "property": "C63",
   "status": "proved",
   "theorems": [
    "Verif.Props.C63_uf1",
    "Verif.Props.C63_uf2",
    "Verif.Props.C63_uf3",
    "Verif.Props.C63_uf4",
    "Verif.Props.C63_uf5",
    "Verif.Props.C63_uf6",
    "Verif.Props.C63_uf7",
    "Verif.Props.C63_uf8",
    "Verif.Props.C63_uf9",
    "Verif.Props.C63_uf10",
    "Verif.Props.C63_rejected"
   ],
   "note": "Objectives over the reals; the default box of the class. The sampled fronts are characterised exactly (grid points or directions of the front)."
  },
  {
   "property": "C64",
   "status": "partial",
   "theorems": [
    "Verif.Props.C64_cf1_partial",
    "Verif.Props.C64_violated_cf1",
    "Verif.Props.C64_cf2_partial",
    "Verif.Props.C64_violated_cf2",
    "Verif.Props.C64_cf3",
    "Verif.Props.C64_cf4",
    "Verif.Props.C64_cf5",
    "Verif.Props.C64_cf6",
    "Verif.Props.C64_cf7",
    "Verif.Props.C64_cf8_partial",
    "Verif.Props.C64_violated_cf8",
    "Verif.Props.C64_cf9_partial",
    "Verif.Props.C64_violated_cf9",
    "Verif.Props.C64_cf10_partial",
    "Verif.Props.C64_violated_cf10",
    "Verif.Props.C64_few"
   ],
   "note": "The Pareto fronts are proved for all ten problems. get_pareto_front is exact for CF3-CF7; for CF1, CF2, CF8, CF9 and CF10 it is refuted with a witness."
  },
  {
   "property": "C65",
   "status": "partial",
   "theorems": [
    "Verif.Props.C65_dent",
    "Verif.Props.C65_conv3",
    "Verif.Props.C65_conv4",
    "Verif.Props.C65_conv42f_partial",
    "Verif.Props.C65_violated_conv42f",
    "Verif.Props.C65_conv42f_size",
    "Verif.Props.C65_disconnected",
    "Verif.Props.C65_modified",
    "Verif.Props.C65_modified_removes"
   ],
   "note": "Proved for DENT, CONV3, CONV4, DisConnected and ModifiedObjective. For CONV4_2F the front is proved; get_pareto_front returns a dominated row for a draw with a single positive entry, and N + 1 rows for N < 2."
  },
  {
   "property": "C66",
   "status": "partial",
   "theorems": [
    "Verif.Props.C66_drawn",
    "Verif.Props.C66_optimal",
    "Verif.Props.C66_optimal6",
    "Verif.Props.C66_covers",
    "Verif.Props.C66_covers_inverted",
    "Verif.Props.C66_covers_curve_partial",
    "Verif.Props.C66_violated_dtlz5",
    "Verif.Props.C66_violated_inverted",
    "Verif.Props.C66_violated_constraint",
    "Verif.Props.C66_dtlz7_partial",
    "Verif.Props.C66_violated_dtlz7",
    "Verif.Props.C66_dtlz7_error"
   ],
   "note": "Holds for DTLZ1-4, IDTLZ1 and (two or three objectives) DTLZ5-6. Violated for DTLZ5 with four objectives (part of the front missed), IDTLZ2 and DTLZ7 (dominated vectors), Eq1DTLZ (infeasible vectors)."
  },
  {
   "property": "C67",
   "status": "partial",
   "theorems": [
    "Verif.Props.C67_backed",
    "Verif.Props.C67_accepts",
    "Verif.Props.C67_adapter",
    "Verif.Props.C67_round_trip_partial",
    "Verif.Props.C67_violated_round_trip",
    "Verif.Props.C67_violated_unbounded",
    "Verif.Props.C67_violated_elementwise",
    "Verif.Props.C67_violated"
   ],
   "note": "Both directions are proved for vectorised problems with finite bounds that JAX can trace; C67_accepts says exactly which arguments from_pymoo accepts. The round trip fails always: the pymoo view uses NumPy and cannot be traced, so from_pymoo rejects it. Pymoo problems without bounds get NaN constraints that no point meets (default boundary_constraints=True), and elementwise problems are accepted but evaluated with a matrix instead of a vector. C67_round_trip_partial says what the round trip would give if the view could be traced. Compiled and differentiated variants are not modelled."
  },
  {
   "property": "C68",
   "status": "proved",
   "theorems": [
    "Verif.Props.C68_hypervolume",
    "Verif.Props.C68_links",
    "Verif.Props.C68_gradient",
    "Verif.Props.C68_hessian",
    "Verif.Props.C68_empty"
   ],
   "note": "Over every ordered field, with any tie-breaking of argsort. The recursion limit has to suffice for the non-dominated sorting (the bound of C07). Exactness of the value is C01; here only termination, absence of exceptions and restoration of the links."
  },
  {
   "property": "C69",
   "status": "partial",
   "theorems": [
    "Verif.Props.C69_iteration",
    "Verif.Props.C69_run",
    "Verif.Props.C69_fixed",
    "Verif.Props.C69_box",
    "Verif.Props.C69_box_returns_partial",
    "Verif.Props.C69_box_raises",
    "Verif.Props.C69_box_run",
    "Verif.Props.C69_hvn",
    "Verif.Props.C69_initialize",
    "Verif.Props.C69_hvn_run",
    "Verif.Props.C69_hvn_box",
    "Verif.Props.C69_direction_partial",
    "Verif.Props.C69_not_limited",
    "Verif.Props.C69_not_default",
    "Verif.Props.C69_multipliers"
   ],
   "note": "Without the step limit every iteration returns and has the stated structure, for the generic iteration and for HVN with the hypervolume. With the limit the property fails: a vanishing primal Newton step makes the iteration raise (C69_not_limited); otherwise it returns (C69_box_returns_partial) and stays in the box (C69_box). The default setting leaves the box (C69_not_default). The direction (KKT system of the active constraints) is shown, with or without preconditioning, for up to five objectives in general position."
  },
  {
   "property": "C70",
   "status": "partial",
   "theorems": [
    "Verif.Props.C70_partial",
    "Verif.Props.C70_violated_unit",
    "Verif.Props.C70_violated"
   ],
   "note": "Violated: the code compares the generational distance (a root mean square) with the mean square of the matched distances without the root. For one point at distance t from its only target both root mean squares are t, but GD is chosen for t < 1 and IGD for t >= 1 (C70_violated_unit), so the choice depends on the unit. C70_partial: GD is never the larger root mean square, GD is used exactly if the mean square is below it, then both are below one; above one IGD, the larger, is used; given types are used."
  },
  {
   "property": "C71",
   "status": "partial",
   "theorems": [
    "Verif.Props.C71_iteration",
    "Verif.Props.C71_box",
    "Verif.Props.C71_run",
    "Verif.Props.C71_start",
    "Verif.Props.C71_many_iteration",
    "Verif.Props.C71_many_box",
    "Verif.Props.C71_many_run",
    "Verif.Props.C71_many_start",
    "Verif.Props.C69_multipliers",
    "Verif.Props.C71_gradient",
    "Verif.Props.C71_hessian",
    "Verif.Props.C71_unused",
    "Verif.Props.C71_few",
    "Verif.Props.C71_violated"
   ],
   "note": "Proved for reference sets of one component with at least as many points as the population (C71_iteration, C71_box, C71_run, C71_start) and for reference sets of several components with clusters that are not empty, not more than the components and not larger than a component (C71_many_iteration, C71_many_box, C71_many_run, C71_many_start). Violated for others: an iteration raises if a component of the reference set is not closest to any point, e.g. if there are more components than points (C71_unused, C71_violated), or if there are fewer reference points than points (C71_few). With several components the line search may match the clusters to other components, so its targets are only known to be points of the components shifted in their directions. The direction is shown to solve the Newton system, with or without preconditioning, where the system has a solution; C71_gradient and C71_hessian show that its gradient and Hessian are the derivatives of the distance to the target. Floats are exact numbers."
  },
  {
   "property": "C72",
   "status": "partial",
   "theorems": [
    "Verif.Props.C72_iteration_partial",
    "Verif.Props.C72_run",
    "Verif.Props.C72_start",
    "Verif.Props.C72_few",
    "Verif.Props.C72_violated_box",
    "Verif.Props.C72_violated_descent",
    "Verif.Props.C69_multipliers",
    "Verif.Props.C72_unused",
    "Verif.Props.C72_few_matching",
    "Verif.Props.C72_many_iteration_partial",
    "Verif.Props.C72_many_run",
    "Verif.Props.C72_many_start"
   ],
   "note": "Violated in four ways. The box handler returns at once, so a point on the boundary leaves the box (C72_violated_box). The line search is skipped whenever the median of the signed entries of the step is close to zero, so the norm of the residual can increase (C72_violated_descent). Without matching the first iteration raises if there are fewer reference points than points (C72_few); with matching every iteration raises then (C72_few_matching), or if a component of the reference set is not closest to any point (C72_unused). C72_iteration_partial proves the rest: it returns, matches and shifts the reference points, its gradient and Hessian are the derivatives of the indicator by the decision points, its direction solves the Newton system without the second derivatives of the constraints where it has a solution, with or without preconditioning, and the step size is the first of 1, 1/2, ..., 1/32 that the Armijo condition accepts, 1/64 otherwise. With matching the same is proved for reference sets of several components with clusters that are not empty, not more than the components and not larger than a component (C72_many_iteration_partial, C72_many_run, C72_many_start); there the line search may match the clusters to other components, so its targets are only known to be points of the components shifted in their directions."
  },
  {
   "property": "C73",
   "status": "partial",
   "theorems": [
    "Verif.Props.C73_mmd",
    "Verif.Props.C73_dp",
    "Verif.Props.C73_hv_partial",
    "Verif.Props.C73_needed",
    "Verif.Props.C71_gradient",
    "Verif.Props.C71_hessian"
   ],
   "note": "Proved for MMDNewton and DpN. For HVN it is proved for up to five objectives and layers in general position; with more objectives the Hessian of the code is wrong (C14). C73_needed is a concrete iteration of MMDNewton without preconditioning whose direction does not decrease the indicator. scipy cholesky is a parameter with the contract IsCholesky."
  },
  {
   "property": "C74",
   "status": "partial",
   "theorems": [
    "Verif.Props.C74_start",
    "Verif.Props.C74_iteration",
    "Verif.Props.C74_run",
    "Verif.Props.C74_descent_partial",
    "Verif.Props.C74_violated_three",
    "Verif.Props.C74_violated_boundary",
    "Verif.Props.C74_violated",
    "Verif.Props.C74_cycle"
   ],
   "note": "The iterations are proved to return and to move as described (vanishing gradients give NaN, C34). That the direction improves all objectives is proved away from the boundary for at most two objectives and for any number of objectives without obtuse angles; it fails for three objectives and at the boundary. There is no line search: C74_cycle is an endless oscillation around a common minimum. The random initial population is not modelled."
  },
  {
   "property": "C75",
   "status": "partial",
   "theorems": [
    "Verif.Props.C75_steady_partial",
    "Verif.Props.C75_violated",
    "Verif.Props.C75_violated_dimension"
   ],
   "note": "Proved for one offspring per generation (the steady state for which the algorithm was designed). Violated with as many offspring as individuals, the default of pymoo: removing the least contributors one after the other can lose hypervolume (C75_violated). Unless there are two objectives a generation raises when the first front does not fit (C75_violated_dimension). Sorting and exact contributions of pymoo are parameters with contracts."
  },
  {
   "property": "C76",
   "status": "partial",
   "theorems": [
    "Verif.Props.C76_three_objectives_partial",
    "Verif.Props.C76_zero",
    "Verif.Props.C76_doubles",
    "Verif.Props.C76_returns",
    "Verif.Props.C76_violated_four",
    "Verif.Props.C76_violated"
   ],
   "note": "Proved for one to three objectives and all inputs in range, with m = (d - 1)(n + 2) + d; for doubles and at most a million points the relative error is below 1e-9. Violated from four objectives on: points that differ by less than the rounding unit tie after the reference point is subtracted, and the code then returns 8 for a hypervolume of at least 10, however small the unit is. Rounding is a parameter with the usual contract of the relative error; overflow and underflow are not modelled."
  },
  {
   "property": "C77",
   "status": "partial",
   "theorems": [
    "Verif.Props.C77_iteration",
    "Verif.Props.C77_run",
    "Verif.Props.C77_hvn_partial",
    "Verif.Props.C77_limit_iteration",
    "Verif.Props.C77_limit_run",
    "Verif.Props.C77_hvn_limit_partial"
   ],
   "note": "C77_iteration and C77_run: for any Newton environment whose residual and matrix belong to a function with a regular zero. C77_hvn_partial: the hypervolume with equality constraints and at most five objectives, where the assumptions of the former are proved from the stationary population. Missing: more than five objectives (the Hessian is wrong, C14), several dominance layers, and preconditioning of a Hessian that is not negative definite at the solution (it changes the direction, so that the order two is lost in general). Preconditioning of a negative definite one is covered: it changes nothing near the solution. With limit_max_step_size and a solution inside the box (C77_limit_iteration, C77_limit_run, C77_hvn_limit_partial) the full step is taken as well; the run raises only where the Newton step of all variables is zero, so 'every iteration returns' fails there (C32, C69)."
  },
  {
   "property": "C78",
   "status": "partial",
   "theorems": [
    "Verif.Props.C78_fits",
    "Verif.Props.C78_partial",
    "Verif.Props.C78_match",
    "Verif.Props.C78_violated_eta",
    "Verif.Props.C78_violated_rows",
    "Verif.Props.C78_wrong_components"
   ],
   "note": "Violated: with fewer reference points than rows a single row is left, since len(ref) is taken after merging (C78_fits says exactly when, C78_violated_rows); if the direction of the first component is missing and there is a second component the function raises (C78_violated_eta). C78_partial: right if the first direction exists and there are enough reference points. C78_match: ReferenceSet matches whatever fits together; C78_wrong_components: with fewer clusters than components it uses the wrong ones (C44)."
  },
  {
   "property": "C79",
   "status": "partial",
   "theorems": [
    "Verif.Props.C79_objective",
    "Verif.Props.C79_onto",
    "Verif.Props.C79_above",
    "Verif.Props.C79_below",
    "Verif.Props.C79_derivatives",
    "Verif.Props.C79_partial",
    "Verif.Props.C79_violated",
    "Verif.Props.C79_violated_close",
    "Verif.Props.C79_step",
    "Verif.Props.C79_ends",
    "Verif.Props.C79_sorted",
    "Verif.Props.C79_monotone"
   ],
   "note": "Violated with two or more pieces: jacobian and hessian lack the factors N and N^2 (C79_derivatives, C79_violated), so Newton steps are N times too long (C79_step). Parameters above one raise, below zero they belong to the last piece (C79_above, C79_below); the version of examples/subset_selection does so for parameters up to 1e-8 above zero, too (C79_violated_close). C79_objective and C79_onto: values are right on [0,1]. C79_partial: the jacobian is right for one piece. Splines are arbitrary curves with exact derivatives; exact arithmetic. C79_ends: both derivatives are reported as zero at all ends of pieces, also between two pieces. sort_splines puts pieces that lie side by side in order, and the first objective then increases along the whole curve (C79_sorted, C79_monotone)."
  },
  {
   "property": "C80",
   "status": "partial",
   "theorems": [
    "Verif.Props.C80_sound",
    "Verif.Props.C80_partial",
    "Verif.Props.C80_violated"
   ],
   "note": "Violated: only the box with the nearest centre is looked at. C80_sound: the constraint is never satisfied outside of the union. C80_partial: right if centres of other boxes are further away than the diagonal of a box."
  },
  {
   "property": "C81",
   "status": "partial",
   "theorems": [
    "Verif.Props.C81_dp_partial",
    "Verif.Props.C81_dp_many_partial",
    "Verif.Props.C81_mmd_partial",
    "Verif.Props.C81_hv_partial",
    "Verif.Props.C81_sticky",
    "Verif.Props.C81_sticky_run",
    "Verif.Props.C81_violated_box",
    "Verif.Props.C81_violated",
    "Verif.Props.C81_violated_sign"
   ],
   "note": "Violated for DpN (C81_violated): a point in a corner of the box is never released even if moving along an edge improves it (C81_violated_box), and an inequality that is active is never released whatever the sign of its multiplier (C81_violated_sign, C81_sticky, C81_sticky_run for MMDNewton with affine constraints). The _partial theorems: a point that rests inside the box satisfies the conditions without the signs, and a point that satisfies them rests, if the Newton equations are solvable resp. have at most one solution. Missing: signs, bounds; HVN without step limit, per layer. Exact arithmetic; contract of the linear solver."
  },
  {
   "property": "C82",
   "status": "partial",
   "theorems": [
    "Verif.Props.C82_features",
    "Verif.Props.C82_count",
    "Verif.Props.C82_forward"
   ],
   "note": "The features are the monomials (C82_features), their number is a binomial coefficient (C82_count). Violated by PolynomialRegression: hidden_dim is right for degree two only, forward fails for every other degree (C82_forward, an equivalence). interaction_only has no counterpart in hidden_dim. Exact arithmetic; the linear layer is a dot product."
  },
  {
   "property": "C83",
   "status": "partial",
   "theorems": [
    "Verif.Props.C83_derivatives",
    "Verif.Props.C83_sphere",
    "Verif.Props.C83_round",
    "Verif.Props.C83_violated_round",
    "Verif.Props.C83_plane",
    "Verif.Props.C83_violated_flat",
    "Verif.Props.C83_violated_flat_list",
    "Verif.Props.C83_violated_lifted",
    "Verif.Props.C83_line",
    "Verif.Props.C83_line_set",
    "Verif.Props.C83_segment",
    "Verif.Props.C83_segment_set",
    "Verif.Props.C83_circle",
    "Verif.Props.C83_line_front",
    "Verif.Props.C83_curves",
    "Verif.Props.C83_drawn_curves"
   ],
   "note": "Derivatives are right; the Pareto sets are characterised exactly (C83_sphere, C83_plane, C83_line, C83_segment) and the sampled sets of HVN/3D_example1, EqCon1, MOP1 lie in them. Violated by DpN/3D_example1 (scale 0.98: all points are dominated), HVN/3D_example2 (rows leave the triangle by 0.01) and DpN/3D_example2 (rows at x = 0.1). The curves drawn for the problems with inequality constraints (concave, convex) are their Pareto sets (C83_curves, C83_drawn_curves). Exact arithmetic."
  },
  {
   "property": "C84",
   "status": "partial",
   "theorems": [
    "Verif.Props.C84_gd",
    "Verif.Props.C84_igd",
    "Verif.Props.C84_igd_matched",
    "Verif.Props.C84_kernels",
    "Verif.Props.C84_mmd_partial",
    "Verif.Props.C84_doubles",
    "Verif.Props.C84_doubles_gd",
    "Verif.Props.C84_violated"
   ],
   "note": "Proved for GD and IGD (p = 2), also with matching. Violated by MMD, whose three means cancel: different sets can have the computed value zero, however small the rounding unit is (C84_violated). C84_mmd_partial bounds its absolute error, C84_kernels that of the kernels; for doubles and up to 1000 points it is below 1e-8 (C84_doubles). Rounding is a parameter with the usual contract, also for sqrt, exp and reciprocals; no overflow or underflow."
  },
  {
   "property": "C85",
   "status": "proved",
   "theorems": [
    "Verif.Props.C85_iteration",
    "Verif.Props.C85_run"
   ],
   "note": "Over the reals, with the contracts of cdist, norm and the solver. The example has two points and a nonlinear equality constraint, for all three types. Not covered: several components, targets that are attained (these are shifted, C71), and preconditioning of a Hessian that is not positive definite at the solution."
  },
  {
   "property": "C86",
   "status": "partial",
   "theorems": [
    "Verif.Props.C86_iteration_partial",
    "Verif.Props.C86_run_partial",
    "Verif.Props.C86_violated"
   ],
   "note": "C86Statement is the full statement; C86_violated refutes it with one point on the parabola x1 = x0^2 (rbf kernel): the second derivatives of the constraints are missing in the Newton matrix (C60), so an iteration leaves at least a third of the distance. The partial theorems cover affine constraints, also for the whole loop, without preconditioning or with it where the Hessian of the MMD is positive definite at the solution. Over the reals, with the contracts of cdist and the solver. Not covered: without matching all reference points move in each iteration (C61, C72), so there is no fixed solution."
  },
  {
   "property": "C87",
   "status": "partial",
   "theorems": [
    "Verif.Props.C87_table_partial",
    "Verif.Props.C87_four_partial",
    "Verif.Props.C87_subset_partial",
    "Verif.Props.C87_violated_equal",
    "Verif.Props.C87_violated_four",
    "Verif.Props.C87_violated_subset",
    "Verif.Props.C87_violated_caption"
   ],
   "note": "C87Statement and C87StatementFour are the full statements. Refuted: equal medians with a rejecting test are counted as a loss (C87_violated_equal); in the table with four methods the column of the MOEA uses the tests of the gradient method (C87_violated_four); the tables of the subset selection compare the median with the spread of the same method (C87_violated_subset); the captions name Holm-Sidak, the code uses Benjamini-Hochberg (C87_violated_caption). The partial theorems hold for different medians; C87_subset_partial tells what the arrows of the subset selection mean (median larger than spread). The p-values of the Mann-Whitney test are arbitrary; multipletests is modelled as the procedure of Benjamini and Hochberg."
  },
  {
   "property": "C88",
   "status": "partial",
   "theorems": [
    "Verif.Props.C88_almost_everywhere_partial",
    "Verif.Props.C88_no_kink_partial",
    "Verif.Props.C88_inequalities",
    "Verif.Props.C88_violated"
   ],
   "note": "C88Statement is the full statement for the equality constraint; C88_violated refutes it with a network of the sizes of the code that computes the identity, whose reported gradient at 0 is 0. The partial theorems prove it (first and second derivatives) outside of a null set, and at every point where no unit is at its kink. Arbitrary weights; the rounding to single precision and the training are not modelled; automatic differentiation is modelled by its rules."
  },
  {
   "property": "C89",
   "status": "partial",
   "theorems": [
    "Verif.Props.C89_read_partial",
    "Verif.Props.C89_violated",
    "Verif.Props.C89_violated_rows",
    "Verif.Props.C89_violated_inline"
   ],
   "note": "C89Statement and C89StatementRows are the full statements. Refuted: after a blank line the header is read as a point and the function raises (C89_violated); rows without exactly three columns are dropped silently (C89_violated_rows); values in the line of a section header are ignored (C89_violated_inline). C89_read_partial covers all files in the format with the header, if any, in the first line. float is a parameter that ignores blanks at both ends."
  },
  {
   "property": "C90",
   "status": "partial",
   "theorems": [
    "Verif.Props.C90_initial",
    "Verif.Props.C90_archive",
    "Verif.Props.C90_reference",
    "Verif.Props.C90_reported_partial",
    "Verif.Props.C90_violated_subset",
    "Verif.Props.C90_violated_reference",
    "Verif.Props.C90_violated_reported"
   ],
   "note": "C90_initial is the full statement for the initial points (an equivalence for the error). C90_archive: each final point is replaced by a nearest archive point. Refuted: the same archive point can be taken twice (C90_violated_subset); the reference point is on the wrong side exactly if a largest value is not positive (C90_reference, C90_violated_reference); the value reported as final is the largest one of the history (C90_reported_partial, C90_violated_reported). KMeans and cdist are arbitrary, random.sample returns different positions."
  },
  {
   "property": "C91",
   "status": "partial",
   "theorems": [
    "Verif.Props.C91_neighbours_partial",
    "Verif.Props.C91_next",
    "Verif.Props.C91_config_bench",
    "Verif.Props.C91_config_save_partial",
    "Verif.Props.C91_violated_neighbours",
    "Verif.Props.C91_violated_config",
    "Verif.Props.C91_next_any"
   ],
   "note": "C91StatementNeighbours and C91StatementConfig are the full statements. Refuted: with repeated directions a subproblem need not be in its neighbourhood (C91_violated_neighbours); run_EA_save_population.py samples 600 of 120 directions in three dimensions for four objectives, which raises (C91_violated_config). C91_next is the full statement for the loop, for the model of the generator of pymoo."
  },
  {
   "property": "C92",
   "status": "partial",
   "theorems": [
    "Verif.Props.C92_saved",
    "Verif.Props.C92_moead",
    "Verif.Props.C92_budget",
    "Verif.Props.C92_rows_partial",
    "Verif.Props.C92_reference_partial",
    "Verif.Props.C92_violated_rows",
    "Verif.Props.C92_violated_reference",
    "Verif.Props.C92_ends",
    "Verif.Props.C92_reference_zdt",
    "Verif.Props.C92_reference_dtlz",
    "Verif.Props.C92_reference_conv",
    "Verif.Props.C92_violated_conv",
    "Verif.Props.C92_reference_names"
   ],
   "note": "C92_saved, C92_moead and C92_budget are the full statements for the saved populations and the number of generations. C92StatementRows and C92StatementReference are the full statements for the rest. Refuted: a run without a result raises because hv_value is unbound (C92_violated_rows); the problems CF and IDTLZ have no reference point (C92_violated_reference); the corners of the front of CONV4_2F are on the boundary of the box below its reference point (C92_violated_conv). C92_reference_zdt, C92_reference_dtlz and C92_reference_conv compare the reference points with the fronts. Integer parts are taken of exact quotients; the algorithm of pymoo is given by its contract (Generational), the generator of its MOEA/D by Loopwise."
  },
  {
   "property": "C93",
   "status": "partial",
   "theorems": [
    "Verif.Props.C93_value_partial",
    "Verif.Props.C93_derivatives",
    "Verif.Props.C93_knots",
    "Verif.Props.C93_constraint",
    "Verif.Props.C93_dent",
    "Verif.Props.C93_component_partial",
    "Verif.Props.C93_two_on_one_partial",
    "Verif.Props.C93_scaled_partial",
    "Verif.Props.C93_violated_end",
    "Verif.Props.C93_violated_scaled",
    "Verif.Props.C93_violated_scaled_statement",
    "Verif.Props.C93_violated_scaled_hessian",
    "Verif.Props.C93_violated_clip",
    "Verif.Props.C93_after_end",
    "Verif.Props.C93_defined",
    "Verif.Props.C93_violated_g"
   ],
   "note": "C93StatementEnd and C93StatementScaled are full statements that the code violates. C93_derivatives covers all points but the breaks, C93_knots the inner breaks of a twice differentiable spline, C93_constraint both derivatives of the constraint, C93_two_on_one_partial the splines of TwoOnOne inside of their breaks. Refuted: the last cubic is evaluated at 0 at the last break (C93_violated_end; Dent raises there, C93_dent); h_jac and h_hessian of TwoOnOne/example.py lack the factors of the scaling (C93_violated_scaled at every point, C93_violated_scaled_hessian where the second derivative is not 0; C93_scaled_partial is the gradient with the factors); the components of TwoOnOne report a derivative where they are constant (C93_violated_clip). C93_after_end and C93_defined say what happens outside of the breaks. The tables are parameters, since the csv files are not in the repository. The unused g of TwoOnOne/example.py has no feasible point in the scaled box (C93_violated_g)."
  },
  {
   "property": "C94",
   "status": "partial",
   "theorems": [
    "Verif.Props.C94_farthest",
    "Verif.Props.C94_partial",
    "Verif.Props.C94_violated"
   ],
   "note": "C94Statement is the full statement. Refuted: directed_hausdorff(ref[i], y) is the distance to the farthest point of the component, so a point of a long component may be matched with a short one (C94_violated). C94_farthest says which component is returned, C94_partial that it is the right one if each other component has a point farther away than all of its points. Squared distances; the function is defined but not called."
  }
 ]
}