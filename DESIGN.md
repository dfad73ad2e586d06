# Verification design

Target: `/repo` (wangronin/HypervolumeDerivatives), package `hvd`.
Tool: Lean 4.33.0 with Mathlib (imported module by module). Build: `cd lean && lake build`.

## 1. Approach

* The model files under `lean/Verif/{HV,HVD,NDS,Util,Opt,Ind,Moea,Prob}` hold Lean functions written function by
  function after the Python source. Each definition cites the file and lines it follows and says where it simplifies.
* Files ending in `Lemmas` and other files beside the models hold helper lemmas. The property theorems are in
  `lean/Verif/Props`, each with a concrete `example` that meets its hypotheses. Specifications in these files
  (Pareto dominance, Lebesgue measure of the dominated region, `HasDerivAt`, minimum-cost matching, the Newton
  equations, ...) do not use the helpers of the model.
* Loops whose termination is not structural get a fuel argument; running out of fuel is an observable failure
  (`none`), and the theorems show that it does not happen, or that it does (C31, C50).
* Python exceptions are values (`none` / `Except`). Mutable objects (linked lists, caches, counters, shared arrays)
  are explicit state records; aliasing is modelled with a heap in C25.
* If the code violates a property there is a theorem `Cxx_violated...` with a concrete witness and a theorem
  `Cxx_..._partial` that says under which condition it holds.

## 2. Trusted base

* The Lean kernel and the axioms `propext`, `Classical.choice`, `Quot.sound`. No other axioms, no `sorry`, no
  `native_decide`.
* The correspondence between the Python text and the Lean model is by inspection (no extraction, nothing was run).
* Numbers: NumPy/JAX floats are exact numbers of an arbitrary linearly ordered field (or `ℝ` where square roots,
  exponentials, measures or derivatives occur). Rounding is modelled for `hypervolume` (C76) and for the values of GD, IGD and MMD (C84). Overflow,
  infinities and integer dtypes are not modelled. NaN occurs only where the code branches on it or creates it by 0/0 (written as `none`).
* User callbacks return fresh arrays; they are otherwise arbitrary functions.

Assumed contracts of external routines (each is a parameter of the model):

| routine | assumption | used in |
|---|---|---|
| `list.sort`, `np.argsort`, `np.unique` | a permutation that sorts; `argsort` may order ties in any way (`IsArgsort`, `SortsFirst`); for scaling: its result depends on the order of the values only (`ComparisonSort`, shown for the stable sort) | C01-C16, C54, C68, C69 |
| Python recursion limit | a number; C07 gives the depth that suffices | C07-C09, C12, C29, C68, C69 |
| `scipy.linalg.cholesky` | succeeds exactly for positive definite matrices, `L L^T = A` (`IsCholesky`, shown to be satisfiable) | C20, C73 |
| `eval` of a string bound | arbitrary function | C19 |
| `scipy.optimize.linprog` | reported solutions are optimal, solvable programs are solved (`SolvesLP`); that the programs are solvable is proved | C27 |
| `pickle`, file system | `load (dump x) = x`; opening for writing empties the file | C28 |
| `np.linalg.norm` | Euclidean norm, or an arbitrary non-negative function where only that matters | C30, C34, C69, C71, C72, C77, C85, C86 |
| cubic interpolation in the line search | arbitrary function that may give NaN | C22 |
| `spsolve`/`solve` with fallback `lstsq` | a vector of the right length; a solution of a square system if there is one (`SolverSound`) | C60, C69, C71, C72, C77, C85, C86 |
| `torch.autograd.functional.jacobian`, `hessian`, `jax.jacrev`, `jacfwd` | the rules of differentiation for the operations used; derivative 0 of ReLU at 0; no rounding | C88 |
| `float` of a text | ignores blanks at both ends (`FloatStrips`) | C89 |
| `KMeans`, `random.sample` | arbitrary labels and centres; different positions (`SamplePositions`), an error if there are too few | C90 |
| `np.argsort`, generator loop of pymoo's `MOEAD`, `get_reference_directions` | a sorting permutation (`ArgsortOk`); one offspring per call (`Loopwise`); number and dimension of the directions | C91 |
| algorithms of pymoo with a limit of generations | the counter is 2 after the first `next` and grows by 1, `has_next` holds for `n` calls (`Generational`) | C92 |
| `mannwhitneyu`, `multipletests(method="fdr_bh")` | arbitrary p-values; the procedure of Benjamini and Hochberg, an error without p-values | C87 |
| `cdist` | symmetric and non-negative (C69); non-negative (C72); the Euclidean distance (`Euclidean`, C70, C85; `EuclideanDist`, C86); at least every difference of coordinates (`PlainHvn`, C77) | C69, C70, C72, C77, C85, C86 |
| `sqrt` | non-negative, with the right square (`Euclidean`) | C70 |
| JAX autodiff of kernels and objectives | exact derivatives (`Kernel.DiffAt`, `Kernel.Diff2At`) | C15, C39-C41 |
| `jax.jit` | traces all arguments, Python `range` over a traced number raises | C46 |
| JAX indexing | out-of-range indices are clamped | C58 |
| `linear_sum_assignment` | minimum-cost assignment with sorted row numbers (`MatchEnv.Sound`, met by brute force) | C42-C45 |
| `KMedoids`, `directed_hausdorff`, `DBSCAN` | labels or medoids of the right shape; Hausdorff distance by definition | C42-C45, C54 |
| pymoo (`NonDominatedSorting`, `Dominator.get_relation`, `compare`, `parameter_less`) | stated contracts (`RelSound`, fronts disjoint and in range) | C47-C49 |
| floating-point sums, differences, products; in C84 also quotients, square roots, exponentials and reciprocals | `Rounding u fl`: relative error at most `u`; no overflow, underflow or NaN; sums in any order (`FlSum`) | C76, C84 |
| pymoo (`NonDominatedSorting` with a limit, `ExactHypervolume2D`, `normalize`) | `SortOk` (disjoint fronts, first front non-dominated and dominating the rest), `HvcExact` (contributions of points that do not dominate each other within the box), an objective without range is only shifted | C75 |
| `gradient.activate`, `importlib.import_module` | sets the backend; returns the requested module (`ImportSound`) | C56 |
| `scipy.linalg.qr` | `Q` orthogonal, `R` upper triangular, `A = Q R` (`QrSound`) | C57 |
| `LocalOutlierFactor` | arbitrary scores | C62 |
| optimiser, non-dominated sorting and RSG inside bootstrapping | arbitrary operations (`BootOps`) | C55 |
| pymoo `Problem`, NumPy on tracers | stores its arguments; `np.asarray(None, float)` is NaN; NumPy functions raise on JAX tracers | C67 |
| random numbers | arbitrary outcomes; `random.sample` gives as many entries as asked for (`SampleOk`) | C46, C48, C78 |

## 3. Modelled and unmodelled code

| file | modelled | not modelled |
|---|---|---|
| `hypervolume.py` | everything but `__str__` | |
| `hypervolume_derivatives.py` | everything but automatic differentiation | `compute_automatic_differentiation` |
| `utils.py` | packing, `compute_chim`, `precondition_hessian`, `get_non_dominated`, `set_bounds`, `handle_box_constraint`, `is_dominate`, non-dominated sorting, `preprocess_reference_set` | plotting, logging, `timeit` |
| `base.py` | `State` completely | |
| `line_search.py`, `newton.py`, `mmd_newton.py` | residuals, Newton steps, line searches, box handling, population check, partition, loop and logging of values, reference shifts | random initial sample, log messages |
| `gradient_based.py` | all: constructor with given points, uniqueness check, step, box handling, iterations | random initial points, log messages |
| `delta_p.py`, `mmd.py`, `reference_set.py` | completely | `__str__` |
| `rsg.py`, `bootstrap.py` | completely but plotting (`filter_outliers` included) | plotting |
| `exact.py` | `DynamicHypervolume` as used by `sms_emoa.py` | the external C program |
| `moea/` | Monte Carlo hypervolume, survival, tournament, `SMSEMOA._advance`, MOEA/D neighbourhoods, `next`, replacement and relaxation | variation operators and main loop of pymoo |
| `problems/` | `base.py`, `utils.py`, ZDT, DTLZ1-7, inverted and constrained DTLZ, WFG, UF, CF, `misc.py`, pymoo factory, pymoo wrapper | remote front files of DTLZ5-7 |
| `scripts/utils.py` | `read_reference_set_data` | plotting |
| `examples/` | hand-written problems and Pareto sets, `poly_features`, `PolynomialRegression`, `PiecewiseBS` and `BS` (HVSS, subset_selection), `pareto_front_approx` of spline.py with `h` and its derivatives (subset_selection), `PiecewiseAnalytical`, `union_box_constraint`, `MLP.forward` and `ParetoApproximator`, `read_bspline_csv`, `select_initial_points`, the choice from the archive | `get_preimage`, training of the network, calls of the optimisers, plotting |
| `scripts/compute_statistics*.py`, `compute_stats.py` in `examples/HVSS` and `examples/subset_selection` | medians, tests, marks and counters of the tables | reading of the files, formatting |
| other `scripts/`, `tests/` | `get_algorithm`, `minimize` and the collection of results of benchmark_EA.py and run_EA_save_population.py | all else |

## 4. Findings (disagreements between code and property, and other observations)

Hypervolume and derivatives
* **C01-C06**: `hypervolume` is wrong for four or more objectives when two points agree in the first three:
  `[[0,1,0,1],[0,1,0,0],[0,0,1,1]]` with reference `(2,2,2,2)` gives 8, the measure is 10. With four objectives this
  needs repeated or dominated points (`C01_four_objectives_partial`: different non-dominated points are safe), with
  five it happens for mutually non-dominated points (12 instead of 14). Without ties it is wrong with 7 objectives when
  a point touches the reference (331 instead of 327). Two nodes can mark each other as dominated at different levels of
  the recursion; from seven objectives on a sweep with a single remaining node reads an area of an earlier sweep.
  Hence the value depends on the order of the rows and may fall when a point is added.
* **C11**: with exact duplicates `get_non_dominated` drops every copy; if nothing is left the indexing fails.
* **C13**: points beyond the reference get a non-zero gradient: `(3,0)`, reference `(2,2)` gives `(-2,1)`; a single
  such point shows it with every number of objectives. With two objectives the rows of points inside the box are
  spoilt as well: `(3,0)`, `(1,1)`, reference `(2,2)` give `(1,1)` the row `(-1,-2)` in place of `(-1,-1)`. From three
  objectives on they are not (`C13_entries_partial`).
* **C14**: the Hessian is exact for 2-5 objectives. With 8 objectives it is not: for five points in
  general position an entry is 2 where the second derivative is not positive (clipping creates ties, which
  `hypervolume` gets wrong). The default sort of `np.argsort` is not stable; if it puts equal values in reverse order, the
  Hessian is wrong already with 6 objectives and four points (`C14_violated_six`).
* **C16**: with `minimization=False` a given `Y` and a given Jacobian are not negated although the reference is; the
  sign of `HVdY` differs between the gradient call and the Hessian call.

Newton methods
* **C18**: `handle_box_constraint` guesses the layout; with as many points as dimensions it is wrong.
* **C22**: the early return of step length 1 ignores the maximal step.
* **C23**: with `compute_hessian=False` the constraint Hessians are stale. **C25**: slicing raises without Jacobians.
* **C28**: `State.save` always raises `KeyError('_jac')`, after truncating the file.
* **C30**: `eps` has no effect (relative tolerance times zero); the tolerance is 1e-8.
* **C31**: the default `max_iters=inf` never ends; `xtol` is unused; the logged indicator value lags one iteration.
* **C32**: a zero step raises. **C33**: points leave the box by up to 1e-8 when the line search is skipped; NaN in
  `argmin` projects onto the wrong axis. **C34**: a zero gradient gives NaN.
* **C61**: `MMDNewton` moves the target of a point that rests at the target of another point; without matching it
  moves the whole reference set in every iteration. The docstrings say that a target moves if the step is *not* zero.
* **C71**, **C72**: with several components in the reference set, an iteration of `DpN`, or of `MMDNewton` with matching,
  raises if one of them is not closest to any point: the distances to the empty part are infinite and
  `linear_sum_assignment` rejects them. So there must be at least as many points as components. With one component the
  reference set must have as many points as the population (`assert`, reference_set.py 64).
* **C72**: `MMDNewton._handle_box_constraint` returns the step unchanged (mmd_newton.py 378-379), so the iteration leaves
  the box: a single point on the bound `0` of `f(x) = (x, 1 - x)` with the reference point `(0, 6/5)` moves to a negative
  `x`. `_backtracking_line_search_global` returns one if the median of all entries of the step is close to zero, although
  the entries need not be: for `f(x) = x` in the plane the step `(-6/7, 6/7)` is taken in full and the norm of the residual
  grows from `exp(-9/32) * 3/2` to `exp(-729/1568) * 27/14` in each entry. `matching=False` shifts all reference points in
  every iteration and raises with fewer reference points than points. `self.indicator.re_match = False` (line 304) has no
  effect, the targets are matched again at each trial.
* **C76**: from four objectives on the floating-point result can be wrong by 20 % for points on which the algorithm is
  right in exact arithmetic: two points that differ in one objective by less than the rounding unit tie once the reference
  point is subtracted, and the violation of C01 for ties follows (`C76_violated_four`).
* **C75**: with the default number of offspring SMS-EMOA can lose hypervolume in a generation: `(0,10)`, `(10,0)`, `(3,3)` with
  the offspring `(2,4)`, `(4,2)`, `(9,9)` become `(0,10)`, `(10,0)`, `(4,2)` (`C75_violated`). With three or more objectives, or
  one, a generation raises as soon as a front has to be split (`C75_violated_dimension`): `alpha` is jitted (C46), and
  `hv_exact` calls a program under `/Users/wangronin`.
* **C74**: the direction of `Lara` (marked "TODO: FIXIT!!" in the source) is not one of common descent for three
  objectives (`C74_violated_three`), and at the boundary of the box not even for two (`C74_violated_boundary`), because
  components are set to zero after the sum is formed. With step size one and no line search, `x² , 2x²` from `1/4` oscillates
  between `1/4` and `-7/4` for ever (`C74_cycle`).
* **C73**: without preconditioning (the default) the direction of `MMDNewton` need not decrease the indicator: for
  `f(x) = x` in the plane and a far reference point the Hessian is indefinite and the direction is one of no descent
  (`C73_needed`). With preconditioning it is, as long as no eigenvalue is below `-8e6`.
* **C70**: `DpN.active_indicator` compares `GD_value`, a root mean square, with `IGD_value`, which with matching is the
  mean square without the root (delta_p.py 184). The generational distance is never the larger root mean square, but it
  is chosen whenever the mean square is below it, which can only happen below one: multiplying all objectives by a
  constant changes which indicator is improved. `curr_indicator_value` is the maximum of the two values for every type.
* **C69**: with `limit_max_step_size` an iteration raises when the primal Newton step of a layer is zero (minimum of an
  empty array), for example at an optimum. By default Newton steps are not limited and leave the box: from `x = 1/2`
  in `[0, 1]` for `(x, 1 - x)` and reference `(4, 1)` to `x = 2`.
* **C60**: `MMDNewton` leaves the curvature of the constraints out of its matrix; there is a point at which its step
  increases the norm of the residual at every positive step size. `MMDNewton._handle_box_constraint` returns at once
  (`if 1 < 2`), so the box is not enforced.
* **C86**: as a consequence `MMDNewton` converges only linearly near nondegenerate solutions on curved constraints
  (`C86_violated`: one point on a parabola). With affine constraints it converges quadratically.

Indicators and reference sets
* **C36**: the GD Hessian for p != 2 misses the factor `|d|^(p-2)`; NaN gradient for p < 2 at points of the reference.
* **C37**: the IGD derivatives ignore p; with matching they are N times the derivatives of the value.
* **C40**: the transposed mixed block is only right for kernels such as stationary ones.
* **C43**: repeated indices shift a point several times; `reference_set` hands out the live array.
* **C44**: `linear_sum_assignment(cost)[1]` drops the row numbers: with more components than parts the wrong component
  is used; an empty part raises. **C45**: `re_match` is set on the indicator but read from the reference set.
* **C62**: `preprocess_reference_set` removes all the copies of a row, and nothing if at most 50 rows remain.
* **C54**: RSG returns 9 points for `Nf = 10` and three equal components; short components, copies and other than two
  objectives raise. **C55**: bootstrapping fails if it is never triggered; the population after the last iteration is
  never recorded. **C57**: the entrywise absolute value breaks orthogonality for three objectives.

Evolutionary algorithms
* **C46**: `@jit` is JAX's, so the Monte Carlo functions raise and SMS-EMOA with three or more objectives fails; with
  `n_exclusive = 2` `delete` breaks the state. In `moead.py` the variable `max_cv` is the mean violation.

Problems
* **C50**: `get_ref_dirs(1, n)` does not terminate for n > 1; `n_partitions = 0` gives NaN.
* **C51**: the documented front of IDTLZ2 is dominated; DTLZ6 has `g >= k/1000` everywhere; the equality constraint of
  Eq1DTLZ vanishes on two spheres (0.1599, 0.1601) and is -1e-4 on the documented one.
* **C52**: `_EPS` makes the point (0,1) of the ZDT1/3/4 fronts dominated; the ZDT6 front is never attained: the fourth
  root of `_EPS` is 0.001, so `g >= 1.009` and the best second objective is 0.009 to 0.018 above the documented one; the
  rounded
  start 0.6183967944 of the fourth region of ZDT3 is dominated by 7e-10 (numerically those of the third and fifth region
  too); the start of the second region lacks a digit (0.182228780 for 0.1822287280), so that a piece of the front is
  missing.
* **C53**: a scalar user constraint combined with boundary constraints raises. **C56**: a body that activates another
  backend while JAX was active before is not undone. **C58**: CF1-CF7 with an odd number of variables: the last
  variable is in no group. **C59**: `WFG2.get_pareto_set` contains dominated points.
* **C64**: only 21 points of `CF1.get_pareto_front` can be attained; `CF2.get_pareto_front` lacks the optimal point (0,1);
  `CF8.get_pareto_front` calls `np.max(v, 0)`, the maximum along an axis, so the second column is constantly 1 and its
  rows are infeasible, and its rows with third entry 1 have a NaN constraint; CF9 and CF10 keep random points with
  `0 < R[0] <= 1e-5`, which are infeasible. CF4 uses 0.125 where CF5 uses `0.125 + (Y-1)^2`; the fronts agree.
* **C65**: a draw with a single positive entry makes `CONV4_2F.get_pareto_front` evaluate a point with a zero coordinate,
  which belongs to the other branch and is dominated; it returns N + 1 rows for N < 2. `DisConnected.get_pareto_front`
  returns `None`, and its second arc lacks the left end, where the equality constraint jumps.
* **C66**: `get_pareto_set` of DTLZ5 with four objectives misses a part of the front (points with g > 0 are not dominated);
  that of DTLZ7 and IDTLZ2 contains dominated vectors; that of Eq1DTLZ ignores the equality constraint. Not formalised:
  `examples/DpN/3D_EqDTLZ.py` passes `kind=` to this method, which takes no such argument.
* **C67**: `from_pymoo(p.as_pymoo_problem())` always raises `TypeError` (the view uses `np.atleast_2d`, which cannot be
  traced); a pymoo problem with `xl=None` gets NaN bounds and, by default, constraints that no point satisfies; an
  `ElementwiseProblem` is accepted but called with a matrix of one row, so that two objectives of three variables have
  six values.
* **C78**: `read_reference_set_data` merges the components into one and then cuts the population to `n = len(ref)` rows,
  which is the number of components, one, not the number of reference points: all but one point are thrown away
  (`C78_violated_rows`). If the direction of the first component cannot be read, `eta` is `None` and the next component
  raises in the exception handler, even if its own direction is there (`C78_violated_eta`). With fewer clusters than
  components the data lead to the wrong components of C44 (`C78_wrong_components`). Not formalised: `get_algorithm` for
  MOEA/D with four objectives samples 600 of 120 directions, which raises.
* **C79**: `PiecewiseBS` and `PiecewiseAnalytical` return the derivatives of the piece with respect to its own parameter:
  with `N` pieces the jacobian is `N` times and the Hessian `N^2` times too small, and Newton steps are `N` times too long.
  A parameter below zero is evaluated on the last piece at a parameter near `-N` (negative indices), one above one raises;
  in `examples/subset_selection` parameters in `(0, 1e-8]` are evaluated on the last piece, too. Splines report derivatives
  of zero at both ends of every piece, also between two pieces (`C79_ends`; the comment in the code wants it for the ends).
* **C80**: `union_box_constraint` looks at the box with the nearest centre only; a point of a flat box may be nearer to the
  centre of another one and is then infeasible (`C80_violated`). The function is not used at the moment.
* Not formalised: `examples/HVSS/run3D.py` trains the approximation on `Y0` but starts from `-Y0` with bounds `[-1, 0]`, so
  the constraint is evaluated outside of the data.
* **C81**: `DpN._handle_box_constraint` (newton.py 660-690) divides `0 / 0` for bounds that are touched by a point whose step
  does not cross them; `np.argmin` takes the first such NaN, so the direction is projected onto an arbitrary axis and not
  onto the blocking one. A point in a corner of the box rests forever although moving along an edge decreases the distance
  to its target (`C81_violated_box`).
* **C81**: signs of multipliers are never looked at. The Newton step keeps `g = 0` for every inequality that is active
  (within `1e-4`), so that affine inequalities are never released (`C81_sticky`, `C81_sticky_run`), also with negative
  multipliers and better feasible points next to them (`C81_violated_sign`).
* **C84**: `MMD.compute` subtracts means of kernel values that are close to each other, so that its relative error is not
  bounded: two different sets can have a computed value of zero (`C84_violated`). The absolute error is small.
* **C82**: `PolynomialRegression` (examples/HVSS/base.py 48-71) computes `hidden_dim` with a formula that holds for degree two
  only; for every other degree the linear layer has the wrong width and `forward` raises (`C82_forward`).
* **C88**: `ParetoApproximator` reports a wrong gradient of the equality constraint where units of the network are at their
  kinks, even if the constraint is smooth there (`C88_violated`). This happens on a null set only
  (`C88_almost_everywhere_partial`). The second derivatives reported are 0 everywhere, so Newton's method sees no curvature.
* **C89**: `read_bspline_csv` raises if a blank line precedes the header (`C89_violated`), drops rows without exactly three
  columns although only two are used later (`C89_violated_rows`), and ignores values in the line of a section header
  (`C89_violated_inline`).
* **C90**: run.py of the subset selection (lines 75-77) can take the same archive point for several final points, so that the
  subset is smaller than announced (`C90_violated_subset`). The reference point `1.5 * max` (line 47) lies on the wrong side
  of the data if the largest value of an objective is negative (`C90_violated_reference`). The value printed as final is the
  largest one of the history, not the one of the final population (`C90_violated_reported`).
* **C91**: with repeated reference directions a subproblem of MOEA/D need not belong to its own neighbourhood
  (`C91_violated_neighbours`). Line 106 of run_EA_save_population.py asks for directions in three dimensions for problems with
  four objectives, and then samples 600 of the 120 directions, which raises (`C91_violated_config`).
* **C94**: `match_cluster` of scripts/benchmark_CONV4.py, which is not called, compares the farthest points of the components, since
  the Hausdorff distance is directed from the component to the point. A point of a long component may be matched with another
  one (`C94_violated`).
* **C93**: in spline.py of ZDT1 and ZDT2 line 14 limits the index of the row but not that of the break, so at the last break the
  last cubic is evaluated at 0 (`C93_violated_end`); Dent raises there (`C93_dent`). `h_jac` of TwoOnOne/example.py (67-69) lacks
  the factors `xu - xl` of the scaling in line 63 at every point (`C93_violated_scaled`), and so does `h_hessian` (72-74) where
  the second derivative is not 0 (`C93_violated_scaled_hessian`). The components of TwoOnOne report the slope of a cubic where `np.clip` makes them constant
  (`C93_violated_clip`). The files coeff.csv and knots.csv are not in the repository.
  `g` of TwoOnOne/example.py (77-81), which is not passed on at the moment, compares the scaled variable with unscaled limits,
  so no point of the unit square satisfies it (`C93_violated_g`).
* **C92**: in benchmark_EA.py a run without a result raises, because `hv_value` is unbound in line 120, although lines 112-114
  provide for this case (`C92_violated_rows`). The problems CF and IDTLZ, which the script imports, have no reference point
  (`C92_violated_reference`). The corners of the front of CONV4_2F are on the boundary of the box below the reference point
  `[2, 2, 2, 10]`, so they add nothing to the hypervolume (`C92_violated_conv`). Not formalised: line 46 imports `hvd.sms_emoa`, which does not exist (`hvd.moea.sms_emoa`).
* **C87**: in the tables of results a row with equal medians and a rejecting test counts as a loss
  (`C87_violated_equal`). compute_statistics_ICML.py line 63 computes `reject3` from `pvalues13` instead of `pvalues14`, so
  the column of the MOEA is marked according to the tests of the gradient method (`C87_violated_four`). compute_stats.py
  lines 42-45 compare the median of a method with its own spread (`C87_violated_subset`). The captions name Holm-Sidak, the
  code uses `fdr_bh`; neither rejects all that the other one does (`C87_violated_caption`).
* **C83**: `pareto_set` of examples/DpN/3D_example1.py scales the projection by 0.98. The centres lie outside of the sphere, so
  this moves all points *away* from them: the whole set, which is plotted as Pareto front and used as reference set, is
  strictly dominated by feasible points (`C83_violated_round`).
* **C83**: the rows of `point_set` in examples/HVN/3D_example2.py start and end 0.01 outside of the triangle; the first point
  of every row is strictly dominated (`C83_violated_flat`). In examples/DpN/3D_example2.py the rows lie at `x = 0.1`
  behind the front `x = 0` (`C83_violated_lifted`).
* Not formalised: several scripts pass keywords that the constructor of `DpN` does not have (`X0=`, `eta=`, `Y_label=`,
  `pareto_front=`), namely 2D_CF2.py, 3D_EqDTLZ.py, MOP1_example.py and all six files example_*.py in examples/DpN,
  examples/MMD/example_ZDT.py, scripts/benchmark_CF.py, benchmark_CONV4.py and benchmark_DTLZ.py. scripts/benchmark_HVN.py
  passes `minimization=` and `problem_name=` to `HVN` and uses `problem.constraint`, its derivatives and `opt.history_HV`, which
  do not exist; examples/MMD/set_theta.py omits `n_var` and `n_obj` of `MMD`.
* Not formalised: `np.row_stack` is deprecated in NumPy 2.

## 5. State of each property

Generated from MANIFEST.json. Axioms in brackets: `p` propext, `c` Classical.choice, `q` Quot.sound, `-` none.

### C01 hypervolume() is the Lebesgue measure of the dominated region (partial)

*Model:* `HV/Model` (linked lists, caches, bounds, flags of `hvRecursive`)

*Proof:* Refinement of the pointer structure to filtered sorted lists (`Ring`, `Sweep`), invariant on caches, marks and areas (`Ctx`, `Sweep`, `Rec`), slab lemma for the Lebesgue measure (`Measure`, `Correct`). Witnesses by evaluation in the kernel.

*Theorems:* `C01_three_objectives` [pcq], `C01_any_objectives_partial` [pcq], `C01_violated` [pcq], `C01_violated_ties` [pcq], `C01_violated_nondominated` [pcq], `C01_violated_touching` [pcq], `C01_four_objectives_partial` [pcq]

*State:* Exact for all inputs with 1-3 objectives, and with 4 for different mutually non-dominated points. For any number of objectives exact if no two relevant points agree in objectives 0, 1 and 2 or tie in one of 3..d-2, and (d >= 7 only) lie strictly below the reference. Without that the code is wrong (witnesses in 4, 5 and 7 objectives). Exact arithmetic instead of floats; |values| within 1e308.

### C02 hypervolume() does not depend on the order of the points (partial)

*Model:* as C01

*Proof:* Consequence of C01: the measure does not depend on the order.

*Theorems:* `C02_three_objectives` [pcq], `C02_any_objectives_partial` [pcq], `C02_violated` [pcq]

*State:* Proved for 1-3 objectives; for more under the same condition as C01. Violated in 4 objectives: swapping two rows changes 8 to 10.

### C03 hypervolume() is monotone and blind to irrelevant points (partial)

*Model:* as C01

*Proof:* Consequence of C01 and monotonicity of the measure; points outside the box are filtered by `compute`, for every dimension.

*Theorems:* `C03_monotone_three_objectives` [pcq], `C03_monotone_any_objectives_partial` [pcq], `C03_outside` [pcq], `C03_dominated_three_objectives` [pcq], `C03_dominated_any_objectives_partial` [pcq], `C03_box_three_objectives` [pcq], `C03_box_any_objectives_partial` [pcq], `C03_violated` [pcq]

*State:* Points outside the reference box never matter (any dimension). The rest for 1-3 objectives, and for more under the condition of C01. Violated in 4 objectives: adding a dominated point lowers 10 to 8.

### C04 hypervolume() is translation invariant and scales with the axes (proved)

*Model:* as C01

*Proof:* Translation and scaling by simulation arguments on the model itself (`Congr`, `Scale`): the scaled run takes the same decisions, its areas and volumes are multiplied by products of the factors. For up to three objectives scaling also from the measure.

*Theorems:* `C04_translation` [pcq], `C04_scaling` [pcq], `C04_scaling_three_objectives` [pcq]

*State:* Translation for all inputs and dimensions. Scaling for all inputs and dimensions (C04_scaling), also where the value itself is wrong (C01), if the sort depends on the order of the values only, as sorting by comparisons does (ComparisonSort); for 1-3 objectives for every sort (C04_scaling_three_objectives). Exact arithmetic; distances to the reference below 1e308.

### C05 hypervolume_improvement() is the exclusive volume of the new point (partial)

*Model:* `HV/Improvement`

*Proof:* C01 and the measure of a set difference.

*Theorems:* `C05_three_objectives` [pcq], `C05_any_objectives_partial` [pcq], `C05_violated` [pcq]

*State:* Proved for 1-3 objectives; for more under the condition of C01. Violated in 4 objectives: an improvement of -2.

### C06 hypervolume() is strictly Pareto compliant (partial)

*Model:* as C01

*Proof:* C01 applied twice; the node values do not matter.

*Theorems:* `C06_three_objectives` [pcq], `C06_any_objectives_partial` [pcq], `C06_violated` [pcq]

*State:* Proved for 1-3 objectives; for more under the condition of C01. Violated in 4 objectives.

### C07 non_domin_sort() returns a partition into consecutive fronts (proved)

*Model:* `NDS/Model`

*Proof:* Functional model of the front array; invariants of the helpers; induction on number of objectives and size; the depth is bounded by a logarithm.

*Theorems:* `C07_partition` [pcq], `C07_rejects` [pq], `C07_decisions` [pcq], `depth_ok` [pcq]

*State:* All inputs; the recursion depth is bounded by (D-1)(log2 n+2)+log2 n+1, so no RecursionError for a limit above that. Both output modes.

### C08 non_domin_sort() fronts are exactly the dominance ranks (proved)

*Model:* `NDS/Model`

*Proof:* The front number equals the length of the longest chain of dominating points (`Fronts`, `Rec`, `Top`).

*Theorems:* `C08_front_zero` [pcq], `C08_front_succ` [pcq], `C08_longest_chain` [pcq]

*State:* All inputs with at least two objectives (values from any linear order, i.e. no NaN).

### C09 non_domin_sort() is insensitive to input order and duplicates (proved)

*Model:* `NDS/Model`

*Proof:* From the characterisation in C08.

*Theorems:* `C09_reorder` [pcq], `C09_equal_rows` [pcq], `C09_monotone` [pcq]

*State:* Reordering and repeating rows, equal rows, strictly increasing transformations of each objective.

### C10 is_dominate() is Pareto dominance (proved)

*Model:* `NDS/Model` (`is_dominate`)

*Proof:* Induction over the loop with early exit.

*Theorems:* `C10_dominance` [pcq], `C10_irreflexive` [pcq], `C10_asymmetric` [pcq], `C10_transitive` [pcq]

*State:* All vectors of any length.

### C11 get_non_dominated() returns exactly the non-dominated points (partial)

*Model:* `NDS/NonDominated`

*Proof:* Characterisation of the loop; witnesses with duplicates.

*Theorems:* `C11_nodup_partial` [pcq], `C11_any_partial` [pq], `C11_violated` [pcq], `C11_violated_error` [pcq], `C11_strict_mode_partial` [pq], `C11_strict_mode_violated` [pcq], `C11_strict_mode_exact` [pcq]

*State:* Holds for inputs without duplicate rows. With duplicates all copies of a non-dominated row are dropped, and if nothing is left the call fails.

### C12 HVdY is the gradient of the hypervolume (proved)

*Model:* `HVD/Model` (`hypervolume_dY`, `_project`)

*Proof:* The measure as a function of one coordinate is affine near a point in general position (`Slope`, `Gradient`); the code computes the slope by C01.

*Theorems:* `C12_gradient` [pcq]

*State:* Any number of points and objectives, general position, differences below 1e308, recursion limit as in C07.

### C13 HVdY is zero for points that do not dominate the reference (partial)

*Model:* `HVD/Model`

*Proof:* Witnesses; from three objectives on the projected box of a point beyond the reference in another objective is empty (`C03_outside`). For points without coinciding values the entries are minus the exclusive volumes in the projections (`gradientY_generic`, `HVD/Outside`), which are the slopes of the hypervolume below the reference.

*Theorems:* `C13_other_objectives_partial` [pcq], `C13_any_objectives_partial` [pcq], `C13_entries_partial` [pcq], `C13_violated` [pcq], `C13_witness` [pcq], `C13_violated_every_dimension` [pcq], `C13_violated_neighbours` [pcq]

*State:* The code violates the property, with every number of objectives (a single point beyond the reference in the first objective). With two objectives it also spoils rows of points inside the box: (3,0), (1,1), reference (2,2) give (1,1) the row (-1,-2), the gradient is (-1,-1). Proved from three objectives on: an entry is zero when the point is beyond the reference in another objective; where no values coincide, an entry of an objective in which the point is below the reference is the partial derivative, wherever the other points are; and which of the remaining entries are wrong.

### C14 HVdY2 is the Hessian of the hypervolume (partial)

*Model:* `HVD/Model` (`_compute_hessian`)

*Proof:* Second application of the gradient theorem in one dimension less and a clipping identity (`Second`, `Hessian`). The violation by running the model on integers in the kernel (`HVD/Witness`), with an `argsort` that reverses ties for six and seven objectives.

*Theorems:* `C14_five_objectives_partial` [pcq], `C14_any_objectives_partial` [pcq], `C14_witness` [pcq], `C14_violated` [pcq], `C14_violated_six` [pcq], `C14_violated_seven` [pcq]

*State:* Proved for 2 to 5 objectives and any number of points, for every argsort that meets its contract. That is the limit: with 6 and 7 objectives there is an argsort (equal values in reverse order) for which an entry is positive where the second derivative is not (C14_violated_six, C14_violated_seven), and with 8 objectives a stable one (C14_violated): the clipped projected points have ties, on which the hypervolume code is not exact. For 6 and more objectives proved under the condition CrossExact (the hypervolume code is exact on those points). Not settled: 6 and 7 objectives with a stable argsort.

### C15 HVdX and HVdX2 obey the chain rule (proved)

*Model:* `HVD/Decision`

*Proof:* Chain rule for finite sums; `HasFDerivAt` for the composite (`Chain`, `Smooth`).

*Theorems:* `C15_gradient` [pcq], `C15_hessian` [pcq], `C15_gradient_derivative` [pcq], `C15_hessian_derivative_partial` [pcq]

*State:* The chain rule for any number of points, variables and objectives (C15_gradient, C15_hessian). In addition HVdX (any number of objectives) and HVdX2 (two to five objectives) are shown to be the derivatives of X -> HV(f(X)).

### C16 maximization mode is consistent (partial)

*Model:* `HVD/Decision`

*Proof:* Witnesses by evaluation; the partial theorem follows the sign through the code.

*Theorems:* `C16_without_Y_partial` [pcq], `C16_violated` [pcq], `C16_compute_witness` [pcq], `C16_sign_violated` [pcq], `C16_sign_witness` [pcq]

*State:* The code violates the property: a given Y is not negated although the reference is, HVdY of the Hessian call is the negative of that of the gradient call, and a given Jacobian is not negated. Proved: what holds when no Y is given.

### C17 packing and unpacking of primal-dual vectors are inverse (proved)

*Model:* `Util/Pack`

*Proof:* Lists, slices and masks; both directions of the round trip.

*Theorems:* `C17_unpack_pack` [pcq], `C17_pack_unpack` [pcq]

*State:* both versions of Nd_vector_to_matrix; all N > 0, sizes and masks

### C18 handle_box_constraint() reflects into the box (partial)

*Model:* `Util/Box`

*Proof:* Real arithmetic with floor and remainder; witness for the ambiguous layout.

*Theorems:* `C18_violated` [pcq], `C18_witness` [pcq], `C18_reflect_partial` [pcq], `C18_mirror` [pcq], `C18_unbounded` [pq]

*State:* violated when the number of points equals the dimension and the bounds differ; proved in all other cases

### C19 set_bounds() always yields one bound per dimension (proved)

*Model:* `Util/Box` (`set_bounds`)

*Proof:* Case distinction over the kinds of input.

*Theorems:* `C19_setBounds` [p], `C19_string` [p]

*State:* eval of a string bound is a parameter

### C20 precondition_hessian() returns a positive definite shift of H (proved)

*Model:* `Util/Precondition`

*Proof:* Loop invariant; a shift above the smallest eigenvalue is reached within 45 doublings for the stated range.

*Theorems:* `C20_precondition` [pcq], `C20_range` [pcq], `exists_isCholesky` [pcq]

*State:* scipy cholesky is a parameter with the contract IsCholesky

### C21 backtracking line search accepts only sufficient decrease (proved)

*Model:* `Util/LineSearch`

*Proof:* Induction over the trials for an arbitrary merit function.

*Theorems:* `C21_lineSearch` [pcq]

*State:* arbitrary merit function, exact arithmetic

### C22 DpN/MMD line search steps stay within their bracket (partial)

*Model:* `Util/LineSearch`

*Proof:* Induction; witness for the early return.

*Theorems:* `C22_dpn_violated` [pcq], `C22_dpn_witness` [pcq], `C22_dpn_partial` [pcq], `C22_interpolating` [pcq], `C22_mmd_violated` [pcq], `C22_mmd_partial` [pcq]

*State:* violated by the early return of step length 1; proved when the early return is not taken; the cubic formula is an arbitrary function that may be NaN

### C23 State keeps cached quantities in sync with X (proved)

*Model:* `Opt/State`

*Proof:* Invariant over all sequences of calls.

*Theorems:* `C23_sync` [pcq], `C23_hessian` [pcq], `C23_update` [pcq], `C23_updateOne` [pcq], `C23_stale_hessian` [pcq], `C23_wrong_size` [pq]

*State:* Every sequence of update/update_one calls, arbitrary callbacks whose batch variants agree with the pointwise functions. Constraint Hessians are in sync iff every update computes them; with compute_hessian=False the old ones are kept (C23_stale_hessian).

### C24 State evaluation counters count evaluations (proved)

*Model:* `Opt/State`

*Proof:* Counting invariant over all sequences of calls.

*Theorems:* `C24_counters` [pcq], `C24_batch` [pq]

*State:* Counters for every call sequence; batch variants change neither values nor counters (non-empty populations).

### C25 slicing a State selects the same rows everywhere (proved)

*Model:* `Opt/State`, `Opt/Heap`

*Proof:* Row selection on values; separation of addresses on the heap model.

*Theorems:* `C25_rows` [pcq], `C25_defined` [pq], `C25_no_jacobian` [pq], `C25_independent` [pcq]

*State:* Row selection and sync on the value model; independence on a heap model with arbitrary interleavings of calls. Slicing raises if the Jacobians were not computed (C25_no_jacobian).

### C26 is_feasible() agrees with the constraint definition (proved)

*Model:* `Opt/State`, `Opt/KKT`

*Proof:* Direct from the definitions of the masks, over all sizes.

*Theorems:* `C26_feasible` [pq], `C26_implies_KKT_feasible` [pcq], `C26_active_infeasible` [pcq]

*State:* Exact arithmetic; tolerance 1e-4 as a rational number.

### C27 check_KKT() certifies exactly the KKT points (proved)

*Model:* `Opt/KKT`, `Opt/LP`

*Proof:* Fourier-Motzkin elimination shows that the programs have optimal solutions; the optimum is zero exactly if multipliers exist.

*Theorems:* `C27_check_KKT` [pcq], `C27_errors` [pq], `Verif.Opt.LP.exists_optimal` [pcq]

*State:* The LP solver is a parameter with the contract SolvesLP (reported solutions are optimal, programs with an optimal solution are solved). That the program has an optimal solution is proved by Fourier-Motzkin elimination. Exact arithmetic, no non-finite numbers.

### C28 State.save()/load() round trip (partial)

*Model:* `Opt/SaveLoad`

*Proof:* Evaluation of the deletions on the dictionary; witness.

*Theorems:* `C28_save_raises` [pq], `C28_violated` [pq], `C28_round_trip_partial` [pcq]

*State:* The property is false: save always raises KeyError for '_jac' after emptying the file. Partial: the round trip for dictionaries that contain all deleted keys.

### C29 HVN partitions the population (proved)

*Model:* `Opt/Partition`

*Proof:* C07 and a partition argument over index lists.

*Theorems:* `C29_partition` [pcq]

*State:* non_domin_sort contributes its theorem C07; also: no set is empty, no feasible point dominates another feasible one of its set. Needs at least two objectives and sufficient recursion depth.

### C30 duplicate removal keeps one representative per cluster (proved)

*Model:* `Opt/Partition` (`_check_population`)

*Proof:* Invariant of the loop over sets of indices.

*Theorems:* `C30_duplicates` [pcq], `C30_eps_irrelevant` [pcq]

*State:* The effective tolerance is 1e-8: the relative tolerance eps multiplies zero. The distance matrix is an arbitrary symmetric nonnegative matrix.

### C31 run() performs exactly the requested iterations and logs each once (proved)

*Model:* `Opt/Run`

*Proof:* Invariant over the iterations with fuel; divergence for infinite bounds.

*Theorems:* `C31_run` [pcq], `C31_default` [pcq], `C31_second_run` [pcq], `C31_infinite` [p]

*State:* All four loops; what an iteration does is a parameter (exceptions inside an iteration end run() and are not modelled). With the default max_iters=inf the loop never ends; xtol is unused. The logged indicator value is the one before the iteration.

### C32 HVN step limiter keeps iterates inside the box (partial)

*Model:* `Opt/BoxStep`

*Proof:* Ordered-field inequalities on every coordinate; witness.

*Theorems:* `C32_partial` [pcq], `C32_tight` [pcq], `C32_zero_step` [pcq], `C32_violated` [pcq]

*State:* Violated for a zero step: np.min of an empty array raises. Proved for all other steps.

### C33 DpN box handling keeps iterates inside the box (partial)

*Model:* `Opt/BoxStep`, `Opt/DpNIter`

*Proof:* Inequalities for the handler; induction over iterations; witness for the excursion.

*Theorems:* `C33_handler` [pcq], `C33_projection` [pcq], `C33_wrong_projection` [pcq], `C33_iteration` [pcq], `C33_partial` [pcq], `C33_excursion` [pcq], `C33_violated` [pcq]

*State:* The handler itself is right. Repeated iterations leave the box by up to 1e-8 when all entries of the step are close to zero, because the line search is then skipped and the step length is one; proved for runs in which this does not happen.

### C34 Lara stays inside the box (partial)

*Model:* `Opt/BoxStep` (`Lara`)

*Proof:* Inner products; witness.

*Theorems:* `C34_partial` [pcq], `C34_violated` [pcq]

*State:* Violated if a gradient vanishes (0/0). Proved if no gradient has norm zero.

### C35 root-finding residual R vanishes exactly at KKT conditions (proved)

*Model:* `Opt/Residual`

*Proof:* Sums over masks; agreement of the three assemblies.

*Theorems:* `C35_constrained` [pcq], `C35_unconstrained` [pq]

*State:* HVN, DpN and MMDNewton; the three matrices agree.

### C36 GD is the p-mean distance to the reference set and its derivative is exact (partial)

*Model:* `Ind/DeltaP`

*Proof:* Finite sums, `HasDerivAt` of norms and powers; exact error term of the Hessian.

*Theorems:* `C36_value` [pcq], `C36_zero` [pcq], `C36_permutation` [pcq], `C36_gradient` [pcq], `C36_gradient_nan` [pcq], `C36_hessian_error` [pcq], `C36_hessian` [pcq], `C36_violated_hessian` [pcq], `C36_violated_gradient` [pcq]

*State:* Value, zero iff in the set, permutations and gradient hold for all p as stated. The Hessian is exact for p = 2 only (C36_hessian); C36_hessian_error gives the exact error for every p and C36_violated_hessian a witness (36 instead of 48 for p = 4). For p < 2 a point in the reference set gives NaN although GD^p is differentiable for p > 1 (C36_violated_gradient).

### C37 IGD value and derivatives agree (partial)

*Model:* `Ind/DeltaP`

*Proof:* As C36; comparison of code and derivative gives the factors.

*Theorems:* `C37_value` [pcq], `C37_partial` [pcq], `C37_error` [pcq], `C37_value_matching` [pcq], `C37_matching_partial` [pcq], `C37_violated_p` [pcq], `C37_violated_matching` [pcq]

*State:* Values as stated. Derivatives agree for p = 2 without matching (C37_partial). They ignore p (C37_violated_p, 4 instead of 32), and with matching they are N times the derivatives of the value (C37_matching_partial, C37_violated_matching).

### C38 MMD is a (pseudo-)distance between point sets (proved)

*Model:* `Ind/MMD`

*Proof:* Positive definiteness of the kernels: power series, Schur products, minima and integrals of such kernels (`PosDef`).

*Theorems:* `C38_value` [pcq], `C38_psd` [pcq], `C38_nonneg` [pcq], `C38_permutation` [pcq], `C38_zero` [pcq], `C38_symmetric` [pcq], `C38_kernels_symmetric` [pcq]

*State:* Exact real arithmetic. Positive semidefiniteness of the three built-in kernels is proved for all point families, theta > 0 and alpha > 0.

### C39 MMD gradient is exact (proved)

*Model:* `Ind/MMD`

*Proof:* Chain rule over sums of kernels.

*Theorems:* `C39_gradient` [pcq], `C39_kernels` [pcq], `C39_laplace` [pcq]

*State:* The automatic derivatives of the kernel are assumed exact (Kernel.DiffAt; autodiff satisfies it). The Laplace kernel is only differentiable where all coordinates differ.

### C40 MMD Hessian is exact (proved)

*Model:* `Ind/MMD`

*Proof:* Second derivatives blockwise; symmetry of stationary kernels.

*Theorems:* `C40_hessian` [pcq], `C40_kernels` [pcq]

*State:* The automatic derivatives of the kernel are assumed exact (Kernel.Diff2At). The code takes the transposed mixed block, which is only right for kernels such as stationary ones; the property is about those.

### C41 MMDMatching value and derivatives agree for a fixed matching (proved)

*Model:* `Ind/MMD`

*Proof:* As C39, C40 for matched pairs.

*Theorems:* `C41_value` [pcq], `C41_derivatives` [pcq]

*State:* For a fixed matching, symmetric stationary kernels, exact automatic derivatives.

### C42 reference matching is a minimum-cost bijection (proved)

*Model:* `Ind/RefSet`

*Proof:* Index bookkeeping over clusters and components; optimality from the contract. `Ind/RefSetDefined`: success with several components, by an invariant of the loop over the parts.

*Theorems:* `C42_match` [pcq], `C42_one_component` [pcq], `C42_partition` [pcq], `C42_defined` [pcq], `C42_given` [pcq], `C42_closest` [pcq]

*State:* Contracts of linear_sum_assignment and KMedoids assumed (MatchEnv.Sound; bruteEnv_sound shows they can be met). Given clusters Y_idx are assumed to be a partition of the indices. C42_given and C42_closest: when matching with several components succeeds.

### C43 shifting moves exactly the requested reference points (proved)

*Model:* `Ind/RefSet`

*Proof:* Invariant `Synced`; induction over indices.

*Theorems:* `C43_match_synced` [pcq], `C43_shift` [pq], `C43_shift_nodup` [pcq], `C43_shift_all` [p], `C43_shift_error` [pcq], `C43_shift_unmatched` [pq]

*State:* A repeated index shifts its point several times (C43_shift). Negative indices are not modelled. Synced is established by match and kept by shift.

### C44 components are matched to partitions consistently (partial)

*Model:* `Ind/RefSet`

*Proof:* Witness by evaluation with a brute force environment; partial from the contract.

*Theorems:* `C44_partial` [pcq], `C44_violated` [pcq], `C44_too_many` [-]

*State:* Holds if there are as many parts as components, which is always so unless Y_idx is given. With fewer parts the row numbers of the rectangular assignment are dropped and the wrong components are used (C44_violated).

### C45 freezing the matching during line search (partial)

*Model:* `Ind/RefSet`

*Proof:* Evaluation of two calls; witness.

*Theorems:* `C45_ref_partial` [p], `C45_partial` [pcq], `C45_violated` [pcq]

*State:* Violated: the flag is set on the indicator, but match reads the flag of the ReferenceSet (C45_violated). With one component the points are only reordered (C45_partial); with the flag of the reference set itself off, nothing changes (C45_ref_partial).

### C46 Monte-Carlo hypervolume counts dominated samples (partial)

*Model:* `Moea/MonteCarlo`

*Proof:* Counting over boolean matrices; combinatorial identity for one excluded point; the weights of HypE are quotients of numbers of sets of `k` points (`C46_hype_partial`).

*Theorems:* `C46_hv_partial` [pcq], `C46_hvc_partial` [pcq], `C46_hype_partial` [pcq], `C46_delete_partial` [pcq], `C46_violated_exclusive` [pcq], `C46_violated_jit` [pcq]

*State:* Proved for the undecorated functions with n_exclusive = 1 (the default), for every dominance matrix with at least one sample: hv, the contributions and the state after delete. As decorated (jax.jit, assumed to trace N and k) every call raises; with n_exclusive = 2 delete breaks hv (witness).

### C47 SMS-EMOA survival keeps exactly n_survive and respects ranks (proved)

*Model:* `Moea/Survival`

*Proof:* List induction over fronts.

*Theorems:* `C47_survival` [pcq], `C47_least` [pcq], `C47_no_number` [p]

*State:* For fronts meeting the contract of the non-dominated sorting (disjoint, in range, enough ranked) and hypervolume objects with one contribution per member. n_survive = None is a TypeError in the code and excluded.

### C48 binary tournament is feasibility- and dominance-first (proved)

*Model:* `Moea/Survival`

*Proof:* Case distinction over the relation and coin flips.

*Theorems:* `C48_tournament` [pq], `C48_all` [pcq], `C48_binary` [pcq]

*State:* For all populations, rows and coin flips, given the contract of Dominator.get_relation (RelSound). Rows that are not pairs raise.

### C49 MOEA/D replacement never worsens a subproblem (proved)

*Model:* `Moea/Moead`

*Proof:* Characterisation of replaced indices; monotonicity of the relaxation.

*Theorems:* `C49_replace` [pcq], `C49_strict` [pq], `C49_eps` [pcq], `C49_eps_none` [pcq]

*State:* Replacement exactly if strictly better; needs at least one neighbour (the maximum over none raises) and neighbours in range. Relaxation: starts at max_cv, antitone, 0 from perc_eps_until on, positive before if max_cv > 0.

### C50 get_ref_dirs() enumerates the simplex lattice (proved)

*Model:* `Prob/RefDirs`

*Proof:* Induction for compositions and binomial counts; divergence for one objective.

*Theorems:* `C50_enumerates` [pcq], `C50_simplex` [pcq], `C50_sphere` [pcq], `C50_one_objective` [pcq], `C50_number` [pcq]

*State:* For all n_obj >= 2 and every n_points (also none, zero, negative): termination, smallest partition number, exact set without repetition, number of directions, sum 1, unit norm. With one objective and more than one point asked for the loop never ends (C50_one_objective, outside the quantifier).

### C51 DTLZ objectives satisfy their defining surface identity (partial)

*Model:* `Prob/DTLZ`

*Proof:* Trigonometric products by induction, Rastrigin inequality, dominance argument.

*Theorems:* `C51_dtlz1` [pcq], `C51_sphere` [pcq], `C51_length` [pcq], `C51_gSphere` [pcq], `C51_gRastrigin` [pcq], `C51_optimal1` [pcq], `C51_optimal` [pcq], `C51_attained1` [pcq], `C51_attained` [pcq], `C51_front1` [pcq], `C51_front` [pcq], `C51_inverted1` [pcq], `C51_inverted` [pcq], `C51_violated_inverted` [pcq], `C51_violated_dtlz6` [pcq], `C51_constraint` [pcq]

*State:* DTLZ1-4 in full: identities, g >= 0 with its zeros, documented front attained and not dominated. Inverted variants: identities proved, but the documented front of IDTLZ2 is dominated (witness). DTLZ6: g >= k/1000 everywhere. The equality constraint vanishes on two spheres, not on the one of radius 0.4. DTLZ7 is in C66.

### C52 ZDT documented Pareto fronts are attained (partial)

*Model:* `Prob/ZDT`

*Proof:* Real inequalities; witnesses. ZDT3: the curve falls or its slope increases on each quarter of a period; the ends of the regions are evaluated to 12 digits with Taylor bounds for sine and cosine (`Prob/Zdt3Lemmas`). ZDT6: `Props/ZDT6`.

*Theorems:* `C52_zdt1_partial` [pcq], `C52_zdt2` [pcq], `C52_zdt3_partial` [pcq], `C52_zdt4_partial` [pcq], `C52_zdt6_partial` [pcq], `C52_zdt6_gap` [pcq], `C52_linspace` [pcq], `C52_violated_zero` [pcq], `C52_violated_zdt3` [pcq], `C52_violated_zdt6` [pcq]

*State:* ZDT2 in full. ZDT1, ZDT4: attained and not dominated for f1 > 1e-12. ZDT3: attained and not dominated on the documented regions up to 1e-9 at their ends; the documented start of the fourth region is dominated by the end of the third one (rounding). At f1 = 0 the documented point (0,1) of ZDT1, ZDT3, ZDT4 is dominated by the objectives of the zero vector because of _EPS. ZDT6: no decision vector attains any documented front point; all documented first objectives are attained, but the smallest second objective there is between 0.009 and 0.018 above the documented one, since the fourth root of _EPS = 1e-12 is 0.001.

### C53 boundary constraints encode the box (proved)

*Model:* `Prob/Base`

*Proof:* Direct over vectors of any length.

*Theorems:* `C53_init` [pq], `C53_boundary` [pcq], `C53_plain` [pq], `C53_scalar` [pq]

*State:* For user constraints that return a vector with the declared number of values (all problems of the repository do). A user constraint returning an array without axes raises when combined with boundary constraints (C53_scalar).

### C54 RSG interpolation returns evenly spaced points on the polyline and the requested number (partial)

*Model:* `Prob/RSG`

*Proof:* Arc-length parametrisation and induction; witnesses.

*Theorems:* `C54_interpolate` [pcq], `C54_constant` [pcq], `C54_few` [pcq], `C54_rsg_partial` [pcq], `C54_one` [pcq], `C54_violated_objectives` [pcq], `C54_violated_noise` [pcq], `C54_violated_count` [pcq], `C54_violated_short` [pcq], `C54_violated_copies` [pcq]

*State:* Interpolation of one component is right for at least two wanted points. RSG as a whole returns points on the polylines, within half the number of components of Nf; not Nf in general, and it raises for short components, for components of copies, and for other than two objectives.

### C55 bootstrapping returns a reference set and shrinks its dominance relaxation (partial)

*Model:* `Opt/Bootstrap`

*Proof:* Invariant over iterations.

*Theorems:* `C55_returned` [pcq], `C55_returns_partial` [pcq], `C55_violated_short` [pcq], `C55_violated_inf` [pq], `C55_relax` [pcq]

*State:* Reference sets exactly at the positive multiples of the interval, in order, the last one returned; the weight shrinks by 0.8 each time. Violated when there are not more iterations than the interval (raises at the end), for an unbounded number of iterations and for interval 0.

### C56 pymoo backend selection is scoped (partial)

*Model:* `Prob/Backend`

*Proof:* State machine with exceptions; induction over nested programs.

*Theorems:* `C56_restores_partial` [p], `C56_nested_partial` [p], `C56_violated` [-], `C56_scoped` [p], `C56_factory` [pcq]

*State:* Restored from every other backend, on exceptions, and for all nestings of programs that switch only through the context manager. Violated when JAX is active before and the body activates another backend (C56_violated).

### C57 ideal direction of a component is a non-positive unit vector (partial)

*Model:* `Util/Chim`

*Proof:* Orthogonality of the last column of Q to the columns of M^T; witness.

*Theorems:* `C57_unit` [pcq], `C57_orthogonal_partial` [pcq], `C57_two` [pcq], `C57_violated` [pcq]

*State:* A unit vector without positive components for every matrix. Orthogonal for two objectives, and in general if the normal of the simplex has one sign; otherwise the entrywise absolute value breaks orthogonality (C57_violated, three objectives).

### C58 CEC CF/UF index groups cover the distance variables (partial)

*Model:* `Prob/Groups`

*Proof:* Index arithmetic for all n.

*Theorems:* `C58_uf2d` [pcq], `C58_uf3d` [pcq], `C58_cf10` [pcq], `C58_cf_partial` [pcq], `C58_violated` [pcq], `C58_clamped` [pcq]

*State:* Holds for UF1-UF10, CF8-CF10 and for CF1-CF7 with an even number of variables; violated by CF1-CF7 for every odd number of variables.

### C59 WFG transformations map [0,1] to [0,1] (proved)

*Model:* `Prob/WFG`

*Proof:* Real inequalities for each transformation (`WFGTransform`, `WFGReduce`, `WFGShape`), induction for the composition; dominance argument (`WFGOptimal`).

*Theorems:* `C59_shifts` [pcq], `C59_biases` [pcq], `C59_reductions` [pcq], `C59_shapes` [pcq], `C59_range` [pcq], `C59_optimal` [pcq], `C59_front` [pcq], `C59_violated_wfg2` [pcq]

*State:* Every shift, bias, reduction and shape maps the unit interval to itself; for all accepted parameters and all points of the box the objectives are in [0, 1+2m]; 0.35 is the only zero of the linear shift. Beyond the property: the points of get_pareto_set are Pareto optimal for all problems but WFG2 (witness of a dominated one), and WFG4-9 have the front sum (f_m/2m)^2 = 1. Over the reals.

### C60 Newton step solves the linearised KKT system (partial)

*Model:* `Opt/Newton`

*Proof:* Block matrices as lists: product with the packed vector computed row by row (`NewtonLemmas`); pack/unpack from C17; `HasDerivAt` of the residual along the step.

*Theorems:* `C60_hvn` [pcq], `C60_dpn` [pcq], `C60_armijo` [pcq], `C60_mmd_partial` [pcq], `C60_mmd_linear_partial` [pcq], `C60_violated_mmd` [pcq]

*State:* Proved for HVN and DpN. Violated by MMDNewton, which leaves the curvature of the constraints out of the matrix: its step solves the equations without that term, and there is a point where its step increases the norm of the residual at every positive step size; it meets the property if the active constraints are linear or their multipliers vanish. Without preconditioning. The linear solver is a parameter: it returns a solution of a square system if there is one.

### C61 Targets move only when they have been reached (partial)

*Model:* `Opt/Shift`

*Proof:* C43 for the set of masked indices; fold over the history; witnesses by evaluation.

*Theorems:* `C61_dpn_first` [pcq], `C61_dpn_later` [pcq], `C61_mmd_first` [pcq], `C61_mmd_later_partial` [pcq], `C61_unmatched_partial` [pq], `C61_violated_mmd` [pcq], `C61_violated_unmatched` [pcq]

*State:* Holds for DpN. MMDNewton tests the distance to the closest of all targets, so targets that are not reached move; without matching every reference point moves in every iteration. Both negations proved.

### C62 Cleaning of point sets keeps representatives and alignment (partial)

*Model:* `Opt/Shift`

*Proof:* Sublists and index characterisations; witnesses by evaluation.

*Theorems:* `C62_rows` [pcq], `C62_duplicates_partial` [pcq], `C62_violated_few` [pcq], `C62_violated_copies` [pcq], `C62_filter` [pcq]

*State:* Rows and alignment proved. The removal of duplicates removes all copies, or nothing if at most 50 rows are left; both negations proved.

### C63 The UF problems have the fronts they document (proved)

*Model:* `Prob/UF`

*Proof:* Penalties are nonnegative and vanish on a curve; Jordan inequality for the gaps of UF5 and UF6; an antichain of attained vectors below every attained vector is the front.

*Theorems:* `C63_uf1` [pcq], `C63_uf2` [pcq], `C63_uf3` [pcq], `C63_uf4` [pcq], `C63_uf5` [pcq], `C63_uf6` [pcq], `C63_uf7` [pcq], `C63_uf8` [pcq], `C63_uf9` [pcq], `C63_uf10` [pcq], `C63_rejected` [pcq]

*State:* Objectives over the reals; the default box of the class. The sampled fronts are characterised exactly (grid points or directions of the front).

### C64 The constrained CF problems have the fronts they document (partial)

*Model:* `Prob/CF`

*Proof:* The penalties are nonnegative; a feasible vector is weakly dominated by a point of the front (Jordan inequality in the gaps of the sine, an envelope for CF4-CF7, a central projection for CF8-CF10); the front is an antichain of attained vectors.

*Theorems:* `C64_cf1_partial` [pcq], `C64_violated_cf1` [pcq], `C64_cf2_partial` [pcq], `C64_violated_cf2` [pcq], `C64_cf3` [pcq], `C64_cf4` [pcq], `C64_cf5` [pcq], `C64_cf6` [pcq], `C64_cf7` [pcq], `C64_cf8_partial` [pcq], `C64_violated_cf8` [pcq], `C64_cf9_partial` [pcq], `C64_violated_cf9` [pcq], `C64_cf10_partial` [pcq], `C64_violated_cf10` [pcq], `C64_few` [pcq]

*State:* The Pareto fronts are proved for all ten problems. get_pareto_front is exact for CF3-CF7; for CF1, CF2, CF8, CF9 and CF10 it is refuted with a witness.

### C65 The problems of misc.py have the fronts they document (partial)

*Model:* `Prob/Misc`

*Proof:* Nearest point of a convex hull (compactness of the simplex, variational inequality) for the CONV problems; monotonicity of the arc of DENT from its derivative, bounded below by Bernstein polynomials.

*Theorems:* `C65_dent` [pcq], `C65_conv3` [pcq], `C65_conv4` [pcq], `C65_conv42f_partial` [pcq], `C65_violated_conv42f` [pcq], `C65_conv42f_size` [pq], `C65_disconnected` [pcq], `C65_modified` [pcq], `C65_modified_removes` [pcq]

*State:* Proved for DENT, CONV3, CONV4, DisConnected and ModifiedObjective. For CONV4_2F the front is proved; get_pareto_front returns a dominated row for a draw with a single positive entry, and N + 1 rows for N < 2.

### C66 get_pareto_set of the DTLZ problems returns the Pareto set (partial)

*Model:* `Prob/DTLZ` (`dtlzSet`, `dtlz7`)

*Proof:* Norm and sum arguments for optimality; scaling by 1 + g and concavity of the sine for coverage; DTLZ7 is separable, so optimality is a condition on each position variable (`Record`).

*Theorems:* `C66_drawn` [pcq], `C66_optimal` [pcq], `C66_optimal6` [pcq], `C66_covers` [pcq], `C66_covers_inverted` [pcq], `C66_covers_curve_partial` [pcq], `C66_violated_dtlz5` [pcq], `C66_violated_inverted` [pcq], `C66_violated_constraint` [pcq], `C66_dtlz7_partial` [pcq], `C66_violated_dtlz7` [pcq], `C66_dtlz7_error` [pcq]

*State:* Holds for DTLZ1-4, IDTLZ1 and (two or three objectives) DTLZ5-6. Violated for DTLZ5 with four objectives (part of the front missed), IDTLZ2 and DTLZ7 (dominated vectors), Eq1DTLZ (infeasible vectors).

### C67 The adapters to and from pymoo preserve the problem (partial)

*Model:* `Prob/Pymoo` (`backed`, `adapter`, `fromPymoo`, `elementwise`)

*Proof:* A vectorised problem is given by its objective and constraint functions (`Vectorised`); the wrapper is evaluated branch by branch, the box constraints by induction on the vectors.

*Theorems:* `C67_backed` [pcq], `C67_accepts` [pcq], `C67_adapter` [pcq], `C67_round_trip_partial` [pcq], `C67_violated_round_trip` [pq], `C67_violated_unbounded` [pcq], `C67_violated_elementwise` [pcq], `C67_violated` [pcq]

*State:* Both directions are proved for vectorised problems with finite bounds that JAX can trace; C67_accepts says exactly which arguments from_pymoo accepts. The round trip fails always: the pymoo view uses NumPy and cannot be traced, so from_pymoo rejects it. Pymoo problems without bounds get NaN constraints that no point meets (default boundary_constraints=True), and elementwise problems are accepted but evaluated with a matrix instead of a vector. C67_round_trip_partial says what the round trip would give if the view could be traced. Compiled and differentiated variants are not modelled.

### C68 The hypervolume and its derivatives return a value on every input (proved)

*Model:* `HV/Model`, `HVD/Model`, `HVD/Decision`

*Proof:* Only the links are followed (`HV/Total`): a stage of a level keeps the rings of the lower lists and a stack of taken-out nodes whose reinsertion restores the old pointers; induction on the level. For the derivatives, a point that nobody dominates stays in front 0 of its projection, so the own block is never empty (`np.insert` would raise).

*Theorems:* `C68_hypervolume` [pcq], `C68_links` [pcq], `C68_gradient` [pcq], `C68_hessian` [pcq], `C68_empty` [pcq]

*State:* Over every ordered field, with any tie-breaking of argsort. The recursion limit has to suffice for the non-dominated sorting (the bound of C07). Exactness of the value is C01; here only termination, absence of exceptions and restoration of the links.

### C69 An iteration of the Hypervolume Newton Method (partial)

*Model:* `Opt/HVNIter` (`_initialize`, `iterate`, `_compute_R`, `_compute_netwon_step`, `_get_phi_func` on top of `State`, partition, line search and the derivatives)

*Proof:* Totality of every part on usable populations (`HVNIterLemmas`, `HVNEnv`), an invariant for the pass over the layers, induction over the iterations. The direction combines C15 and C60 through `HVD/Given` (cached objectives and Jacobians are those the indicator would evaluate); `PointsLemmas` and `Props/Kkt` express the active constraints and their derivatives in terms of the callbacks.

*Theorems:* `C69_iteration` [pcq], `C69_run` [pcq], `C69_fixed` [pcq], `C69_box` [pcq], `C69_box_returns_partial` [pcq], `C69_box_raises` [pcq], `C69_box_run` [pcq], `C69_hvn` [pcq], `C69_initialize` [pcq], `C69_hvn_run` [pcq], `C69_hvn_box` [pcq], `C69_direction_partial` [pcq], `C69_not_limited` [pcq], `C69_not_default` [pcq], `C69_multipliers` [pq]

*State:* Without the step limit every iteration returns and has the stated structure, for the generic iteration and for HVN with the hypervolume. With the limit the property fails: a vanishing primal Newton step makes the iteration raise (C69_not_limited); otherwise it returns (C69_box_returns_partial) and stays in the box (C69_box). The default setting leaves the box (C69_not_default). The direction (KKT system of the active constraints) is shown, with or without preconditioning, for up to five objectives in general position.

### C70 The indicator that DpN works on (partial)

*Model:* `Opt/DpN` (`gdValue`, `igdValue`, `gdActive`)

*Proof:* Every distance to the nearest target is at most the one to the own target, so `gd^2 <= igd`; the witness is one point and one target.

*Theorems:* `C70_partial` [pcq], `C70_violated_unit` [pcq], `C70_violated` [pcq]

*State:* Violated: the code compares the generational distance (a root mean square) with the mean square of the matched distances without the root. For one point at distance t from its only target both root mean squares are t, but GD is chosen for t < 1 and IGD for t >= 1 (C70_violated_unit), so the choice depends on the unit. C70_partial: GD is never the larger root mean square, GD is used exactly if the mean square is below it, then both are below one; above one IGD, the larger, is used; given types are used.

### C71 An iteration of the Delta-p Newton method (partial)

*Model:* `Opt/DpN` (`start`, `iterate`, `run` on top of `State`, `RefSet`, `Shift`, `Residual`, `Newton`, `BoxStep`, `LineSearch`)

*Proof:* Totality of every part (`DpNRef`, `DpNLemmas`, `DpNRows`, `DpNSearch`): the invariant of the reference set is that its targets are paired with the points (`Paired`), kept by matching, shift and every evaluation inside the line search; then induction over the trials, the points and the iterations. `Opt/DpNMany`: with several components the invariant is that the targets of each cluster are stored in a component of its own (`Placed`, `ManyRef`); matching the same points twice gives the same components, since these do not depend on the stored targets. `Props/Components`: a component without points makes the matching fail.

*Theorems:* `C71_iteration` [pcq], `C71_box` [pcq], `C71_run` [pcq], `C71_start` [pcq], `C71_many_iteration` [pcq], `C71_many_box` [pcq], `C71_many_run` [pcq], `C71_many_start` [pcq], `C69_multipliers` [pq], `C71_gradient` [pcq], `C71_hessian` [pcq], `C71_unused` [pcq], `C71_few` [pcq], `C71_violated` [pcq]

*State:* Proved for reference sets of one component with at least as many points as the population (C71_iteration, C71_box, C71_run, C71_start) and for reference sets of several components with clusters that are not empty, not more than the components and not larger than a component (C71_many_iteration, C71_many_box, C71_many_run, C71_many_start). Violated for others: an iteration raises if a component of the reference set is not closest to any point, e.g. if there are more components than points (C71_unused, C71_violated), or if there are fewer reference points than points (C71_few). With several components the line search may match the clusters to other components, so its targets are only known to be points of the components shifted in their directions. The direction is shown to solve the Newton system, with or without preconditioning, where the system has a solution; C71_gradient and C71_hessian show that its gradient and Hessian are the derivatives of the distance to the target. Floats are exact numbers.

### C72 An iteration of the MMD Newton method (partial)

*Model:* `Opt/MMDN` (`start`, `iterate`, `run` on top of `State`, `RefSet`, `Shift`, `Residual`, `Newton`, `MMD`)

*Proof:* Totality of every part (`MMDNLemmas`, `MMDNStep`); C39, C40 and C41 give the derivatives, C60 the direction; induction over the trials and the iterations. `Props/MMDNMany`: several components with matching, with the invariants of `Opt/DpNMany`. The witnesses compute the first and second derivatives of the indicator in closed form and use the uniqueness of derivatives.

*Theorems:* `C72_iteration_partial` [pcq], `C72_run` [pcq], `C72_start` [pcq], `C72_few` [pcq], `C72_violated_box` [pcq], `C72_violated_descent` [pcq], `C69_multipliers` [pq], `C72_unused` [pcq], `C72_few_matching` [pcq], `C72_many_iteration_partial` [pcq], `C72_many_run` [pcq], `C72_many_start` [pcq]

*State:* Violated in four ways. The box handler returns at once, so a point on the boundary leaves the box (C72_violated_box). The line search is skipped whenever the median of the signed entries of the step is close to zero, so the norm of the residual can increase (C72_violated_descent). Without matching the first iteration raises if there are fewer reference points than points (C72_few); with matching every iteration raises then (C72_few_matching), or if a component of the reference set is not closest to any point (C72_unused). C72_iteration_partial proves the rest: it returns, matches and shifts the reference points, its gradient and Hessian are the derivatives of the indicator by the decision points, its direction solves the Newton system without the second derivatives of the constraints where it has a solution, with or without preconditioning, and the step size is the first of 1, 1/2, ..., 1/32 that the Armijo condition accepts, 1/64 otherwise. With matching the same is proved for reference sets of several components with clusters that are not empty, not more than the components and not larger than a component (C72_many_iteration_partial, C72_many_run, C72_many_start); there the line search may match the clusters to other components, so its targets are only known to be points of the components shifted in their directions.

### C73 Preconditioned Newton directions improve the indicator (partial)

*Model:* `Opt/Precond` (`precondition_hessian` on tables, with the signs of the three callers) on top of the iterations of C69, C71 and C72

*Proof:* C20 gives a positive definite matrix, so the Newton system is solvable and its solution has a negative product with the gradient (`PrecondLemmas`); the chain rule along the line (`HVD/ChainLine` for the hypervolume) turns that into the statement about small steps.

*Theorems:* `C73_mmd` [pcq], `C73_dp` [pcq], `C73_hv_partial` [pcq], `C73_needed` [pcq], `C71_gradient` [pcq], `C71_hessian` [pcq]

*State:* Proved for MMDNewton and DpN. For HVN it is proved for up to five objectives and layers in general position; with more objectives the Hessian of the code is wrong (C14). C73_needed is a concrete iteration of MMDNewton without preconditioning whose direction does not decrease the indicator. scipy cholesky is a parameter with the contract IsCholesky.

### C74 The gradient method Lara as a whole (partial)

*Model:* `Opt/Lara` on top of `Opt/State`, `Opt/Partition` (`keptIdx`) and `Opt/BoxStep` (`laraStep`, `laraBox`)

*Proof:* C30 for the duplicates, C23 for the state; `laraBox_spec` gives the common step size, its maximality and the direction; induction over the iterations. Descent: the derivative along the direction is minus a sum of inner products of normalised gradients. Violations by linear objectives with rational unit gradients.

*Theorems:* `C74_start` [pcq], `C74_iteration` [pcq], `C74_run` [pcq], `C74_descent_partial` [pcq], `C74_violated_three` [pcq], `C74_violated_boundary` [pcq], `C74_violated` [pcq], `C74_cycle` [pcq]

*State:* The iterations are proved to return and to move as described (vanishing gradients give NaN, C34). That the direction improves all objectives is proved away from the boundary for at most two objectives and for any number of objectives without obtuse angles; it fails for three objectives and at the boundary. There is no line search: C74_cycle is an endless oscillation around a common minimum. The random initial population is not modelled.

### C75 A generation of SMS-EMOA does not lose hypervolume (partial)

*Model:* `Moea/SmsEmoa` (`_advance`, normalisation) on top of `Moea/Survival`

*Proof:* C47 for the survivors. If the removed individual is not in the first front, it is dominated by a survivor; otherwise the first front is everybody, and removing the least contributor leaves at least as much as removing the offspring. Translation and scaling of the Lebesgue measure for the normalisation. The violation computes areas of staircases.

*Theorems:* `C75_steady_partial` [pcq], `C75_violated` [pcq], `C75_violated_dimension` [pcq]

*State:* Proved for one offspring per generation (the steady state for which the algorithm was designed). Violated with as many offspring as individuals, the default of pymoo: removing the least contributors one after the other can lose hypervolume (C75_violated). Unless there are two objectives a generation raises when the first front does not fit (C75_violated_dimension). Sorting and exact contributions of pymoo are parameters with contracts.

### C76 Floating-point accuracy of the hypervolume (partial)

*Model:* `HV/Model` instantiated with `HV/Round.Rnd`, numbers whose operations round

*Proof:* Invariant of the two sweeps: the running volume is a sum of non-negative slabs, each off by a bounded number of factors between `1 - u` and `1 + u`, so errors never cancel. The recursion for three objectives visits each node once, hence marks and caches are never used. The shift by the reference point is a perturbation of the points; monotony and scaling of the measure bound its effect. For the violation the model commutes with embeddings (`HV/Embed`), which reduces the run with rounding to one on integers.

*Theorems:* `C76_three_objectives_partial` [pcq], `C76_zero` [pcq], `C76_doubles` [pcq], `C76_returns` [pcq], `C76_violated_four` [pcq], `C76_violated` [pcq]

*State:* Proved for one to three objectives and all inputs in range, with m = (d - 1)(n + 2) + d; for doubles and at most a million points the relative error is below 1e-9. Violated from four objectives on: points that differ by less than the rounding unit tie after the reference point is subtracted, and the code then returns 8 for a hypervolume of at least 10, however small the unit is. Rounding is a parameter with the usual contract of the relative error; overflow and underflow are not modelled.

### C77 Local quadratic convergence of HVN (partial)

*Model:* the iterations of `Opt/HVNIter` over the reals

*Proof:* `Opt/LocalNewton`: the classical local theorem for Newton steps of a function with Lipschitz derivative and injective derivative at the zero. `Opt/OneLayer`: with one layer and an accepted full step the iteration is a Newton step for the whole population; the line search accepts since the residual drops by the square. For the hypervolume, `HVD/Inclusion` writes it near points in general position as a fixed polynomial of the objectives (inclusion-exclusion with fixed maxima), so the Lagrangian is three times differentiable where the objectives are (`Props/SmoothHv`, `Props/Lagrangian`); C69 identifies residual and matrix of the code with its first and second derivative. The example has two points and a nonlinear equality constraint. `Opt/PrecondKeep`: `precondition_hessian` returns a positive definite matrix unchanged, and definiteness of the second derivative is an open condition, so that near such a solution preconditioning changes nothing (also for C85 and C86). The results with `limit` in their names include the limit of the step at the bounds, which is inactive near an inner solution.

*Theorems:* `C77_iteration` [pcq], `C77_run` [pcq], `C77_hvn_partial` [pcq], `C77_limit_iteration` [pcq], `C77_limit_run` [pcq], `C77_hvn_limit_partial` [pcq]

*State:* C77_iteration and C77_run: for any Newton environment whose residual and matrix belong to a function with a regular zero. C77_hvn_partial: the hypervolume with equality constraints and at most five objectives, where the assumptions of the former are proved from the stationary population. Missing: more than five objectives (the Hessian is wrong, C14), several dominance layers, and preconditioning of a Hessian that is not negative definite at the solution (it changes the direction, so that the order two is lost in general). Preconditioning of a negative definite one is covered: it changes nothing near the solution. With limit_max_step_size and a solution inside the box (C77_limit_iteration, C77_limit_run, C77_hvn_limit_partial) the full step is taken as well; the run raises only where the Newton step of all variables is zero, so 'every iteration returns' fails there (C32, C69).

### C78 Reading reference sets and populations (partial)

*Model:* `Scripts/RefData`: the whole function; files are modelled by their contents

*Proof:* Invariants of the loop over the components (keys of both dictionaries, no empty component); the clusters are a partition by `np.unique` of the labels; sizes by the case distinction on merging. C78_match uses C42_given and C42_defined.

*Theorems:* `C78_fits` [pcq], `C78_partial` [pcq], `C78_match` [pcq], `C78_violated_eta` [pcq], `C78_violated_rows` [pcq], `C78_wrong_components` [pcq]

*State:* Violated: with fewer reference points than rows a single row is left, since len(ref) is taken after merging (C78_fits says exactly when, C78_violated_rows); if the direction of the first component is missing and there is a second component the function raises (C78_violated_eta). C78_partial: right if the first direction exists and there are enough reference points. C78_match: ReferenceSet matches whatever fits together; C78_wrong_components: with fewer clusters than components it uses the wrong ones (C44).

### C79 Piecewise curves and their derivatives (partial)

*Model:* `Scripts/Piecewise`

*Proof:* Floor arithmetic for the index (with negative indices of Python); chain rule on the interior of a piece. `Props/SplineOrder`: the order of the sorted pieces from that of their left ends.

*Theorems:* `C79_objective` [pcq], `C79_onto` [pcq], `C79_above` [pcq], `C79_below` [pcq], `C79_derivatives` [pcq], `C79_partial` [pcq], `C79_violated` [pcq], `C79_violated_close` [pcq], `C79_step` [pcq], `C79_ends` [pcq], `C79_sorted` [pq], `C79_monotone` [pcq]

*State:* Violated with two or more pieces: jacobian and hessian lack the factors N and N^2 (C79_derivatives, C79_violated), so Newton steps are N times too long (C79_step). Parameters above one raise, below zero they belong to the last piece (C79_above, C79_below); the version of examples/subset_selection does so for parameters up to 1e-8 above zero, too (C79_violated_close). C79_objective and C79_onto: values are right on [0,1]. C79_partial: the jacobian is right for one piece. Splines are arbitrary curves with exact derivatives; exact arithmetic. C79_ends: both derivatives are reported as zero at all ends of pieces, also between two pieces. sort_splines puts pieces that lie side by side in order, and the first objective then increases along the whole curve (C79_sorted, C79_monotone).

### C80 A union of boxes as a constraint (partial)

*Model:* `Scripts/BoxUnion`

*Proof:* The nearest box by induction over the list; Cauchy-Schwarz for boxes far apart.

*Theorems:* `C80_sound` [pcq], `C80_partial` [pcq], `C80_violated` [pcq]

*State:* Violated: only the box with the nearest centre is looked at. C80_sound: the constraint is never satisfied outside of the union. C80_partial: right if centres of other boxes are further away than the diagonal of a box.

### C81 Populations at rest are stationary (partial)

*Model:* `Opt/DpN`, `Opt/MMDN`, `Opt/HVNIter`

*Proof:* A zero step is a zero residual by the Newton equations; steps inside the box have positive length (`dpnBox_interior`, strengthened C71). The violations are invariants over any number of iterations of one point with one reference point.

*Theorems:* `C81_dp_partial` [pcq], `C81_dp_many_partial` [pcq], `C81_mmd_partial` [pcq], `C81_hv_partial` [pcq], `C81_sticky` [pcq], `C81_sticky_run` [pcq], `C81_violated_box` [pcq], `C81_violated` [pcq], `C81_violated_sign` [pcq]

*State:* Violated for DpN (C81_violated): a point in a corner of the box is never released even if moving along an edge improves it (C81_violated_box), and an inequality that is active is never released whatever the sign of its multiplier (C81_violated_sign, C81_sticky, C81_sticky_run for MMDNewton with affine constraints). The _partial theorems: a point that rests inside the box satisfies the conditions without the signs, and a point that satisfies them rests, if the Newton equations are solvable resp. have at most one solution. Missing: signs, bounds; HVN without step limit, per layer. Exact arithmetic; contract of the linear solver.

### C82 Polynomial features (partial)

*Model:* `Scripts/PolyFeatures`: `combsRepl`, `combs`, `polyProds`, `polyFeatures`, `hiddenDim`, `polyForward`

*Proof:* Induction over combinations with repetition; the count by Pascal's rule; the equation `hidden_dim` = number of features is solved for the degree.

*Theorems:* `C82_features` [pcq], `C82_count` [pcq], `C82_forward` [pcq]

*State:* The features are the monomials (C82_features), their number is a binomial coefficient (C82_count). Violated by PolynomialRegression: hidden_dim is right for degree two only, forward fails for every other degree (C82_forward, an equivalence). interaction_only has no counterpart in hidden_dim. Exact arithmetic; the linear layer is a dot product.

### C83 Hand-written problems of the examples (partial)

*Model:* `Scripts/Examples`: objectives, constraints, derivatives and point sets

*Proof:* A minimax lemma (`minimax`: a hull that avoids zero has a common direction, by its closest point to zero) shows that points off the hull of the centres, or off its projection onto the sphere, are strictly dominated; optimality by the weighted sum with the weights of the hull. Above a decreasing curve the optimal points are those on it (`above_curve`).

*Theorems:* `C83_derivatives` [pcq], `C83_sphere` [pcq], `C83_round` [pcq], `C83_violated_round` [pcq], `C83_plane` [pcq], `C83_violated_flat` [pcq], `C83_violated_flat_list` [pcq], `C83_violated_lifted` [pcq], `C83_line` [pcq], `C83_line_set` [pcq], `C83_segment` [pcq], `C83_segment_set` [pcq], `C83_circle` [pcq], `C83_line_front` [pcq], `C83_curves` [pcq], `C83_drawn_curves` [pcq]

*State:* Derivatives are right; the Pareto sets are characterised exactly (C83_sphere, C83_plane, C83_line, C83_segment) and the sampled sets of HVN/3D_example1, EqCon1, MOP1 lie in them. Violated by DpN/3D_example1 (scale 0.98: all points are dominated), HVN/3D_example2 (rows leave the triangle by 0.01) and DpN/3D_example2 (rows at x = 0.1). The curves drawn for the problems with inequality constraints (concave, convex) are their Pareto sets (C83_curves, C83_drawn_curves). Exact arithmetic.

### C84 Rounding errors of GD, IGD and MMD (partial)

*Model:* `Ind/FlModel`: relations `FlSum` (any order and bracketing), `FlGd`, `FlIgd`, `FlIgdMatched`, `FlRbf`, `FlLaplace`, `FlRationalQuadratic`, `FlMmd`

*Proof:* Induction over the tree of additions; all terms of GD and IGD are non-negative, so errors never cancel, and the minimum of perturbed distances is a perturbation of the minimum. Kernels by the slope of `exp` and `x exp(-x) <= 1`. The witness rounds numbers close to an integer to it.

*Theorems:* `C84_gd` [pcq], `C84_igd` [pcq], `C84_igd_matched` [pcq], `C84_kernels` [pcq], `C84_mmd_partial` [pcq], `C84_doubles` [pcq], `C84_doubles_gd` [pcq], `C84_violated` [pcq]

*State:* Proved for GD and IGD (p = 2), also with matching. Violated by MMD, whose three means cancel: different sets can have the computed value zero, however small the rounding unit is (C84_violated). C84_mmd_partial bounds its absolute error, C84_kernels that of the kernels; for doubles and up to 1000 points it is below 1e-8 (C84_doubles). Rounding is a parameter with the usual contract, also for sqrt, exp and reciprocals; no overflow or underflow.

### C85 Local quadratic convergence of DpN (proved)

*Model:* the iterations of `Opt/DpN` over the reals

*Proof:* `Props/KktMap`: the first-order conditions of one point with the constraints active at the solution are a C2 map with injective derivative; residual and Newton equations of the code (C71) are its value and derivative near the solution, since the active set does not change there. `newton_local` (C77) gives the step. Unique targets are stable under small changes of the distances (`targets_stable`: gaps between finitely many targets or permutations). Inside the box the step is not shortened, and the line search accepts it since the residual drops by half.

*Theorems:* `C85_iteration` [pcq], `C85_run` [pcq]

*State:* Over the reals, with the contracts of cdist, norm and the solver. The example has two points and a nonlinear equality constraint, for all three types. Not covered: several components, targets that are attained (these are shifted, C71), and preconditioning of a Hessian that is not positive definite at the solution.

### C86 Local quadratic convergence of MMDNewton (partial)

*Model:* the iterations of `Opt/MMDN` with matching over the reals

*Proof:* `Props/KktMapMmd`: the first-order conditions of the whole population with the constraints active at the solution are a C2 map with injective derivative; residual and Newton equations of the code (C72) are its value and derivative near the solution if the constraints are affine. `newton_local` (C77) gives the step, `targets_stable` (C85) the targets, and the residual drops by half, so that the common step size is 1. `Props/LocalConvMmdCurved`: the witness with the constraint `x1 = x0^2`; there the Newton equations of the code are solved exactly, the step in `x0` being `-x0 / (2 - x0^2 - 4 x0^4)`.

*Theorems:* `C86_iteration_partial` [pcq], `C86_run_partial` [pcq], `C86_violated` [pcq]

*State:* C86Statement is the full statement; C86_violated refutes it with one point on the parabola x1 = x0^2 (rbf kernel): the second derivatives of the constraints are missing in the Newton matrix (C60), so an iteration leaves at least a third of the distance. The partial theorems cover affine constraints, also for the whole loop, without preconditioning or with it where the Hessian of the MMD is positive definite at the solution. Over the reals, with the contracts of cdist and the solver. Not covered: without matching all reference points move in each iteration (C61, C72), so there is no fixed solution.

### C87 Tables of results (partial)

*Model:* `Scripts/Statistics`: `stats_func`, the loops over the files and the tables, with the p-values as a parameter

*Proof:* `Props/Statistics`: the loop over the rows is a map (`countRows_spec`, induction), medians are compared with an independent definition (`medianOf_iff`), the rejections with the definition of the procedure (`bhReject_spec`), the quantiles with linear interpolation (`quantileTenth_eq`). The refutations are concrete tables.

*Theorems:* `C87_table_partial` [pcq], `C87_four_partial` [pcq], `C87_subset_partial` [pcq], `C87_violated_equal` [pcq], `C87_violated_four` [pcq], `C87_violated_subset` [pcq], `C87_violated_caption` [pcq]

*State:* C87Statement and C87StatementFour are the full statements. Refuted: equal medians with a rejecting test are counted as a loss (C87_violated_equal); in the table with four methods the column of the MOEA uses the tests of the gradient method (C87_violated_four); the tables of the subset selection compare the median with the spread of the same method (C87_violated_subset); the captions name Holm-Sidak, the code uses Benjamini-Hochberg (C87_violated_caption). The partial theorems hold for different medians; C87_subset_partial tells what the arrows of the subset selection mean (median larger than spread). The p-values of the Mann-Whitney test are arbitrary; multipletests is modelled as the procedure of Benjamini and Hochberg.

### C88 Network approximation of a Pareto front (partial)

*Model:* `Scripts/Approximator`: networks with any layers, the backward pass and its tangent, constraints of `ParetoApproximator`

*Proof:* `Props/Approximator`: induction over the layers with any function before them: near almost all points the network is affine with the coefficients of the backward pass. Where the input of a ReLU is 0, either its derivative is 0 and the ReLU is constant, or the point belongs to a null set (`ae_zero_fderiv`, by density points). The refutation is `max 0 x - max 0 (-x)` at 0.

*Theorems:* `C88_almost_everywhere_partial` [pcq], `C88_no_kink_partial` [pcq], `C88_inequalities` [pcq], `C88_violated` [pcq]

*State:* C88Statement is the full statement for the equality constraint; C88_violated refutes it with a network of the sizes of the code that computes the identity, whose reported gradient at 0 is 0. The partial theorems prove it (first and second derivatives) outside of a null set, and at every point where no unit is at its kink. Arbitrary weights; the rounding to single precision and the training are not modelled; automatic differentiation is modelled by its rules.

### C89 Reading spline files (partial)

*Model:* `Scripts/SplineFile`: the loop over the lines with its modes, on lists of characters

*Proof:* `Props/SplineFile`: a grammar of cells; stripping keeps the cells (`strip_cells`), splitting at commas recovers them (`splitComma_cells`), lines of numbers are no headers; induction over the lines of each section.

*Theorems:* `C89_read_partial` [pcq], `C89_violated` [pcq], `C89_violated_rows` [pcq], `C89_violated_inline` [pcq]

*State:* C89Statement and C89StatementRows are the full statements. Refuted: after a blank line the header is read as a point and the function raises (C89_violated); rows without exactly three columns are dropped silently (C89_violated_rows); values in the line of a section header are ignored (C89_violated_inline). C89_read_partial covers all files in the format with the header, if any, in the first line. float is a parameter that ignores blanks at both ends.

### C90 Subset selection (partial)

*Model:* `Scripts/Subset`: `select_initial_points`, the choice from the archive, the reference point, the reported values

*Proof:* `Props/Subset`: the loop over the clusters as a `filterMap`; representatives of different clusters have different labels. Concrete witnesses for the refutations.

*Theorems:* `C90_initial` [pcq], `C90_archive` [pcq], `C90_reference` [pcq], `C90_reported_partial` [pq], `C90_violated_subset` [-], `C90_violated_reference` [pcq], `C90_violated_reported` [p]

*State:* C90_initial is the full statement for the initial points (an equivalence for the error). C90_archive: each final point is replaced by a nearest archive point. Refuted: the same archive point can be taken twice (C90_violated_subset); the reference point is on the wrong side exactly if a largest value is not positive (C90_reference, C90_violated_reference); the value reported as final is the largest one of the history (C90_reported_partial, C90_violated_reported). KMeans and cdist are arbitrary, random.sample returns different positions.

### C91 Set-up and loop of MOEA/D (partial)

*Model:* `Moea/MoeadSetup`: neighbourhoods, the loop of `next`, `get_algorithm` of two scripts

*Proof:* `Props/MoeadSetup`: a sorted permutation is split by `take`; induction over the remaining subproblems; the configurations are computed.

*Theorems:* `C91_neighbours_partial` [pcq], `C91_next` [pcq], `C91_config_bench` [pq], `C91_config_save_partial` [p], `C91_violated_neighbours` [pcq], `C91_violated_config` [p], `C91_next_any` [pq]

*State:* C91StatementNeighbours and C91StatementConfig are the full statements. Refuted: with repeated directions a subproblem need not be in its neighbourhood (C91_violated_neighbours); run_EA_save_population.py samples 600 of 120 directions in three dimensions for four objectives, which raises (C91_violated_config). C91_next is the full statement for the loop, for the model of the generator of pymoo.

### C92 Runs of the evolutionary algorithms in the scripts (partial)

*Model:* `Scripts/EaRuns`: the loop of `minimize`, the rows of results, the number of generations, the table of reference points

*Proof:* `Props/EaRuns`: induction over the remaining generations (`saveLoop_spec`), the contract holds for MOEA/D by the lemma on its generator loop (`drain_spec`); nested integer parts; `Props/EaReference`: bounds of the objectives on the fronts of ZDT, DTLZ and CONV4_2F (from C51, C52, C65, C66) against the table of reference points; counterexamples are computed.

*Theorems:* `C92_saved` [pcq], `C92_moead` [pcq], `C92_budget` [pcq], `C92_rows_partial` [pq], `C92_reference_partial` [-], `C92_violated_rows` [pq], `C92_violated_reference` [pq], `C92_ends` [pq], `C92_reference_zdt` [pcq], `C92_reference_dtlz` [pcq], `C92_reference_conv` [pcq], `C92_violated_conv` [pcq], `C92_reference_names` [pcq]

*State:* C92_saved, C92_moead and C92_budget are the full statements for the saved populations and the number of generations. C92StatementRows and C92StatementReference are the full statements for the rest. Refuted: a run without a result raises because hv_value is unbound (C92_violated_rows); the problems CF and IDTLZ have no reference point (C92_violated_reference); the corners of the front of CONV4_2F are on the boundary of the box below its reference point (C92_violated_conv). C92_reference_zdt, C92_reference_dtlz and C92_reference_conv compare the reference points with the fronts. Integer parts are taken of exact quotients; the algorithm of pymoo is given by its contract (Generational), the generator of its MOEA/D by Loopwise.

### C93 Cubic splines as equality constraints (partial)

*Model:* `Scripts/CubicFront`: `pareto_front_approx` of ZDT1, ZDT2 and Dent, `pareto_front_approx` and the components of TwoOnOne, `h` with its derivatives, scaled or not

*Proof:* `Props/CubicFront`: the last break not above `x` is characterised by induction (`getLast_filter_range`) and is locally constant away from the breaks; at inner breaks the one-sided derivatives are joined (`glue_deriv`); the missing factor contradicts the uniqueness of the derivative along the second axis; counterexamples are computed.

*Theorems:* `C93_value_partial` [pcq], `C93_derivatives` [pcq], `C93_knots` [pcq], `C93_constraint` [pcq], `C93_dent` [pq], `C93_component_partial` [pcq], `C93_two_on_one_partial` [pcq], `C93_scaled_partial` [pcq], `C93_violated_end` [pcq], `C93_violated_scaled` [pcq], `C93_violated_scaled_statement` [pcq], `C93_violated_scaled_hessian` [pcq], `C93_violated_clip` [pcq], `C93_after_end` [pq], `C93_defined` [pcq], `C93_violated_g` [pcq]

*State:* C93StatementEnd and C93StatementScaled are full statements that the code violates. C93_derivatives covers all points but the breaks, C93_knots the inner breaks of a twice differentiable spline, C93_constraint both derivatives of the constraint, C93_two_on_one_partial the splines of TwoOnOne inside of their breaks. Refuted: the last cubic is evaluated at 0 at the last break (C93_violated_end; Dent raises there, C93_dent); h_jac and h_hessian of TwoOnOne/example.py lack the factors of the scaling (C93_violated_scaled at every point, C93_violated_scaled_hessian where the second derivative is not 0; C93_scaled_partial is the gradient with the factors); the components of TwoOnOne report a derivative where they are constant (C93_violated_clip). C93_after_end and C93_defined say what happens outside of the breaks. The tables are parameters, since the csv files are not in the repository. The unused g of TwoOnOne/example.py has no feasible point in the scaled box (C93_violated_g).

### C94 The component of a point (partial)

*Model:* `Scripts/MatchCluster`: `match_cluster`

*Proof:* `Props/MatchCluster`: the largest distance of each component by the properties of maximum and minimum of a list; a counterexample is computed.

*Theorems:* `C94_farthest` [pcq], `C94_partial` [pcq], `C94_violated` [pcq]

*State:* C94Statement is the full statement. Refuted: directed_hausdorff(ref[i], y) is the distance to the farthest point of the component, so a point of a long component may be matched with a short one (C94_violated). C94_farthest says which component is returned, C94_partial that it is the right one if each other component has a point farther away than all of its points. Squared distances; the function is defined but not called.


## 6. Wrong programs

`seeded/LOG.jsonl` lists 862 seeded errors (one edit in a model definition each). 837 of them break the build, i.e. some theorem is no longer provable by its proof; the others are: M120 (quotient inverted: The theorems only used k = 1 and k = N, where the quotient is 0 or 1 (up to inversion). C46_hype_partial gives the meaning of the weights for every k; M157 is the same edit against it.); M272 (third point reversed: C65_conv3 was stated with the centres of the model; now with the three points written out (corner3). M286 is the same edit against it.); M340 (inequality constraints forgotten: The residual and the Newton system with constraints were not part of C69 then. The definition is now Funcs.constrained in Opt/Points; M374 is the same edit against the strengthened theorems (KktResidual, KktNewton).); M351 (missing constraint values accepted: Nothing said which problems from_pymoo rejects. M370 is the same edit against C67_accepts.); M352 (scalar bounds raise: C67_backed asked for one bound per variable; now a single number for all is included (StoredAs). M371 is the same edit against it.); M362 (native problems rejected: Problems of this package as argument did not occur. M372 is the same edit against C67_accepts.); M363 (indices not clamped: The witness only read x[0]; now it reads x[0] and x[1]. M373 is the same edit against it.); M372 (native problems rejected: survived: the theorem did not say what a native problem is turned into; tightened and re-run as M420); M374 (inequality constraints forgotten: survived: the specification took the number of multipliers from the model; tightened and re-run as M421); M497 (derivative not zeroed at the right end: Survived at first: nothing said what a spline reports at the right end. C79_ends was added and rejects it.); M564 (front starts at zero: survived: nothing said where the documented front of ZDT6 starts; C52_zdt6_gap was added and fails with this edit); M590 (missing n_survive is accepted: survived: nothing said what happens without a number of survivors; tightened and re-run as M745); M598 (relative tolerance ignored: survived: the edit changed only the comment above the definition, so the program was not wrong; C11_strict_mode_exact was added afterwards, the edit of the definition itself is M833); M627 (default number of directions: survived: the statement took the default number of directions from the model; tightened and re-run as M747); M695 (termination ignored: survived: the loop of next was only stated for one kind of algorithm; tightened and re-run as M748); M710 (the end of the turns taken for the end of the loop: survived: nothing said when a run with too few turns ends; tightened and re-run as M749); M726 (rows with NaN kept: survived: in the model no indicator value was NaN; the model was extended by this case, re-run as M753); M727 (rows with one number kept: survived: in the model no indicator value was NaN; the model was extended by this case, re-run as M754); M728 (reference point of DTLZ7: survived: only the lengths of the reference points were stated; tightened and re-run as M750); M730 (no point for ZDT6: survived: a missing reference point was not excluded; tightened and re-run as M751); M731 (prefix is enough: survived: names outside of the table were not considered; tightened and re-run as M752); M746 (relative tolerance ignored: survived: the edit changed only the comment above the definition, so the program was not wrong; repeated on the definition itself as M833); M785 (longer arrays accepted: survived: nothing said that an array of the wrong size raises; tightened and re-run as M850); M815 (second centre: survived: the Pareto set does not depend on this coordinate and nothing was said about the front; tightened and re-run as M851); M852 (sum instead of difference: survived: the theorems used the distance of the model; stated with an independent distance and re-run as M857).
