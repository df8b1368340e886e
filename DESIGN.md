# Formal model of extensisq in Lean 4 — design

Source: `/repo/extensisq/*.py` (read as text, not run). Lean project: `/verif/lean`.

## 1. Trusted base

* **Kernel.** Lean 4.33.0; Mathlib is checked by the same kernel. No `sorry`-like placeholders, no compiled evaluation.
  Finite checks (coefficient tables, all rooted trees up to an order, runs of the model used as witnesses) are
  done by `decide +kernel`, i.e. by reduction in the kernel.
* **Axioms.** Only `propext`, `Classical.choice`, `Quot.sound`; no axioms of our own. `AXIOMS.md` (generated) lists the
  axioms of every theorem in the manifest.
* **Reading of the code.** Every definition of the model cites the file and lines it models; the correspondence of the
  Python text and the Lean definitions is by inspection.
* **scipy's `OdeSolver`, `DenseOutput`, `solve_ivp`, `CubicHermiteSpline`** are not in `/repo`. The status machine
  of `OdeSolver.step`, the guard of `dense_output` and the attributes `t_old`, `direction` are modelled from their documented
  contract (`Model/Driver.lean`, `Model/Dense.lean`) and are trusted. `solve_ivp` is not modelled; the sensitivity
  functions, which call it, are modelled with an arbitrary solution object (`Model/Sens.lean`).
* **Exact arithmetic.** Numbers are elements of an arbitrary ordered field `K` (`ℚ` for executed witnesses, `ℝ` for statements
  with roots, limits and derivatives). Rounding errors of IEEE arithmetic are *not* modelled, except for the operations on time and step size in `Model/FloatTime.lean` and `Model/FloatTimeOther.lean` (C89, C90, C114; no overflow there). Non-finite
  error norms are modelled (`ENorm = num | inf | nan` with Python's comparison semantics), non-finite values of `fun` in ESDIRK too.
  Decimal coefficients are modelled as the rationals written in the source.
* **Powers** `x ** e` are a parameter `pw` with the facts used as hypotheses (`PowOK`, `PowUp`), proved for `Real.rpow`.
* **numpy / scipy linear algebra** (`@`, `solve`, `lu_factor`, `svd`, `matrix_rank`) is exact linear algebra or a
  parameter with its mathematical contract as hypothesis (`LinSolves`, `IsSVD`, `RootOK`).
* **User functions** (`fun`, `jac`, `rho_jac`, ...) are arbitrary total functions unless a theorem says otherwise
  (smooth, affine, ...).

### Modelled code

| code | model | not modelled there |
|---|---|---|
| `common.py:30-66` `validate_tol`, `calculate_scale`, `norm` | `Validate`, `HStart` | dtype of `atol` |
| `common.py:69-368` `RungeKutta` (constructor, `_step_impl`, stages, error, `_reassess_stepsize`, dense output) | `Construct`, `Driver`, `RK`, `Methods`, `Dense` | logging, checks of `y0` by scipy |
| `common.py:370-517`, `824-1205` stiffness diagnosis, `stiff_a`–`stiff_d` | `Driver` (bookkeeping), `Stiff`, `StiffWeights`, `StiffWarn`, `StiffConst`, `NyStiffConst` | warning text |
| `common.py:519-764` `h_start` | `HStart` | — |
| `common.py:766-822`, `1489-1614` dense output classes | `Dense`, `NystromDense`, `DenseVec` | — |
| `common.py:1207-1487` `RungeKuttaNystrom` | `Nystrom`, `NystromDense` | (the stiffness test and its constants are in `StiffWarn`, `NyStiffConst`) |
| `common.py:1616-2254` `ESDIRK` | `Esdirk`, `EsdirkConstruct`, `EsdirkDense`, `EsdirkInit` | numerical Jacobian (`num_jac`), sparse storage, complex mass matrices |
| `bogacki.py`, `calvo.py`, `cash.py`, `merson.py`, `prince.py`, `tsitouras.py` | `Tables`, `TablesDense`, `Methods`, `CKdisc` | — |
| `fine.py`, `mikkawy.py`, `murua.py` | `NystromTables`, `NystromDense` | — |
| `hosea.py`, `kennedy.py`, `kvaerno.py` | `EsdirkTables`, `EsdirkDense` | — |
| `sommeijer.py` `SSV2stab` | `Cheb`, `ChebDense`, `OtherConstruct`, `FloatTimeOther` | infinite or nan values of `rho_jac` in the constructor |
| `shampine.py` `SWAG` | `Swag`, `SwagIndex`, `OtherConstruct`, `FloatTimeOther` | warning about rounding in the constructor |
| `sensitivity.py` | `Sens`, `SensArgs` | `solve_ivp` |
| creation, sharing and in-place change of arrays, all solver classes | `Alias` | parts of arrays (a view counts as the whole array, except rows of `W` and extra rows of `K_extended`), contents, tests |
| `__init__.py`, docs, tests | — | nothing to model |

Also not modelled: warnings and logging text, vectorised calls of `fun`, plotting and documentation code.

## 2. Architecture

* `Verif/Spec`: rooted trees (`Trees`) and Nyström trees (`NTrees`) with their order conditions, independent of the model.
* `Verif/Model`: the model, function by function.
* `Verif/Lemmas`: proof machinery (loop rules, B-series, tree enumeration, polynomial and stability lemmas, convergence).
* `Verif/Props`: the theorems `Cnn_…`, one file per group, with the specification predicates at the head of the file and
  examples that meet the hypotheses (`…Witness` files for the longer runs).

`while` loops are modelled with a fuel argument: `loop fuel s : Option Result`, `none` = "still running". A call *returns* `r`
iff some fuel gives `some r`. Termination claims are `∃ fuel ≤ bound, loop fuel s ≠ none`; safety claims hold for
every fuel. Exceptions are values. Reachability is an inductive closure over API calls (`step`, `dense_output`, construction).
Ghost fields (histories, numbers of evaluations) are marked in the comments.

Coefficient tables were generated from the sources by `tools/gen_*.py` (text evaluation with exact rationals) and are
Lean literals; the generators are not trusted in the proofs, but the tables are part of the reading of the code.

## 3. Properties: what is modelled and how it is proved

All properties are proved; none is partial; none had to be left out.

| id | model | proof |
|---|---|---|
| C01–C03 | driver loop, `_reassess_stepsize` | invariant on `h` through the loop; induction over histories. Proviso `min_step ≤ max_step`, with a counterexample for the excluded case (F3) |
| C04 | status machine | invariant `running → dir (tb - t) > 0`, `finished → t = tb` |
| C05 | error test | inversion of the loop; the step is a textbook Runge-Kutta step (`IsRKStep`) |
| C06 | loop | `h` shrinks by a fixed factor per retry: explicit bound; divergence for `g ≥ 1` proved (F5, F15) |
| C07, C58, C73 | controller | case analysis, real powers; witnesses F14, F16 |
| C08, C09, C30, C31, C57 | counters, attributes | induction over attempts and histories, several solvers for the global counter |
| C10, C28, C61 | stored derivative, stage array | invariants; simulation between histories with and without `dense_output` |
| C11–C14 | validation | decision logic in both directions; fold invariant |
| C15 | `h_start` | branch by branch |
| C16–C19 | stage recursion | induction over stages, lifted to histories by simulation |
| C20–C22, C86 | coefficient tables | enumeration of all rooted trees up to the order proved complete, evaluated by the kernel (integers with a common denominator for decimal tables) |
| C23–C27, C60 | dense outputs | algebra, derivatives, interpolation order conditions for all trees, B-series with variable weights |
| C29, C62, C63 | stiffness test | real algebra; cost by induction; linear problems |
| C32, C33, C74, C75 | `CKdisc` | loop invariants; order of the fallback solutions |
| C34–C40, C64, C78, C79 | ESDIRK loop and Newton iteration | loop invariants; linear algebra; decrease of the step for termination |
| C41 | ESDIRK stability functions | rational functions over ℂ bounded by a polynomial inequality on the imaginary axis and the maximum principle (all methods; Kv3I's limit at infinity up to 1e-17) |
| C42–C44, C67–C70, C80, C81 | `SSV2stab` | driver invariants; Chebyshev polynomials beyond 1; stages as a Runge-Kutta method with any number of stages; stability interval; order two |
| C45–C48, C77, C82–C84 | `SWAG` | index safety by evaluation order; coefficients as iterated integrals; Newton interpolation on the true mesh; PECE formulas; control rules |
| C49–C52, C65, C66 | sensitivity | index arithmetic; calculus of variations with parameters; duality of the adjoint pairing |
| C53, C54, C71, C72, C55 | Nyström | construction histories; Nyström trees, N-series; interpolants |
| C56, C76 | ESDIRK interpolants | Hermite data; linear algebra on tables over ℚ(√2) |
| C59 | local error | B-series over ordered trees for smooth (infinitely often differentiable) right-hand sides |
| C85 | ESDIRK order | B-series with residuals of the stages; near orders for rounded tables |
| C87 | convergence | uniform Taylor remainder on compact sets, local Lipschitz bound, discrete Gronwall over the history |
| C88 | DAE initialisation | linear algebra in the coordinates of the singular value decomposition; statement free of it |
| C89 | times advance in floating point | `Model/FloatTime.lean` rounds every operation on time and step size; rounding to nearest axiomatised by its definition (`Spec/Float.lean`, existence proved); error bounds |
| C90 | end of the interval in floating point | the same model; Sterbenz lemma; exact evaluation of a double precision example |
| C91 | argument checks of the sensitivity functions | shapes and error kinds as values; acceptance characterised by an equivalence |
| C92 | dense output of `SSV2stab` | `Model/ChebDense.lean`; cubic Hermite identities; loop invariant for the lost data; B-series with variable weights |
| C93 | convergence of `SSV2stab` | the stages as an explicit Runge-Kutta method, uniform consistency on compacts, maximum over the numbers of stages, accumulation of errors |
| C94 | warnings of the stiffness detection | `Model/StiffWarn.lean`; case analysis of the roots; two planar linear problems as witnesses |
| C95 | convergence of `MR6NN`, `Fi4N`, `Fi5N` | `Lemmas/OneStep.lean`: convergence of the driver for any one-step relation with a local error bound; uniform order of the Nystrom increment on compact sets |
| C96 | constructors of the explicit methods | `Model/Construct.lean`: arguments to `Cfg`/`Solver` or exception; accepted iff spec `ArgsOK`; result meets `CfgOK` |
| C97 | constructor of the ESDIRK methods | `Model/EsdirkConstruct.lean`; accepted iff spec `EArgsOK`; result meets `ECfgOK`, mass matrix and Jacobian mode as documented |
| C98 | constructors of `SSV2stab` and `SWAG` | `Model/OtherConstruct.lean`; accepted iff spec; result meets `ChebStart` / `SwOK`; `t_bound = -inf` defect |
| C99 | convergence of `Ts5`, `Pr8`, `Pr9` to a floor | `Lemmas/NearConv.lean`: Taylor coefficients of bounded size uniformly along a solution; stability of the stages with constants that do not depend on the method (radius, Lipschitz constant and differentials of the problem); nodes compared with row sums; accumulation by `driver_global_error` |
| C100 | arrays handed out are not changed later | `Model/Alias.lean`: the array statements (new array, other name or view, in-place change, call of user code, handing out) of every method as a program; nondeterministic big-step semantics on a heap, left at any point; a checker (may-alias, protected, seen by the user) proved sound for all executions (`Lemmas/Alias.lean`), run by the kernel on the programs; witness runs for the exceptions |
| C101 | reads see values | same; every name carries the value it would have without sharing; `ok` records that all reads agree; the checker tracks names whose block was changed through another name |
| C102 | dense output for arrays of times | `Model/DenseVec.lean`: the calls as written, with broadcasting; column `j` equal to the scalar model by induction over Horner's rule; SWAG: work array with arbitrary contents threaded through the loop over points |
| C103 | convergence of the ESDIRK methods | `Lemmas/PicardConv.lean`: the iterates of the fixed-point iteration are stages of an explicit method whose elementary weights agree with those of the implicit method for trees with at most `N+1` vertices, so `NearConv` applies to them; the distance of the stages of the solver from the iterates is `O(h^N)` plus their residuals; accumulation along histories (`EReachWithin`), the residual of the first stage being that of the last stage of the step before |
| C104 | stiffness test on weighted real and complex arrays | `Model/StiffWeights.lean`; the test commutes with linear isometries (`stiffA_map`), applied to the weighting, to the expansion of complex arrays, to rescalings and permutations; roots transferred from C63 |
| C105 | convergence of SWAG with variable steps and orders | `Lemmas/SwagConv.lean`: the Adams weights as integrals of Lagrange polynomials, bounded because no step is more than twice as long as the one before (`nextH_le`, `mesh_quality`); defect of the exact solution by Taylor's theorem (`adams_defect`); error recursion of a predictor-corrector step (`pece_step`), accumulated by a discrete Gronwall argument with the sum of the local errors as a ghost quantity (`SwRun`); the norms are assumed never infinite (as in C46) |
| C106 | dense output of the ESDIRK methods converges | the continuous order conditions `sum_i b_i(θ) Φ_i(τ) = θ^(size of τ) / γ(τ)` are checked coefficient by coefficient on the tables (`denseNear`, kernel-evaluated over all trees up to the order); for the splines of TRBDF2 and TRX2 from order two and the trapezoidal first stage (`hs_table1`, `hs_table2`); `implicit_step_dense` (`Lemmas/PicardConv.lean`, uniform over the scaled times) turns them into the error of one step, `esdirk_global_error` (C103) supplies the error at its start |
| C107 | inexact right-hand sides and starting values | `Lemmas/NoisyConv.lean`: one step with `g` differs from one step with `f` by at most a constant times `h δ` (induction over the stages, inside the tube around the solution), so the defects accumulate to `C δ` next to the `C H^order` of C87 (`accumulate_defect`) |
| C108 | `fun` is called between `t0` and `t_bound` only | congruence of the model: two methods which agree on a set of times (`AgreeOn`) have the same `loop`, `step` and histories as long as the invariant `t, t + h` between `t0` and `t_bound` holds (C01, C34, C46) and the nodes of the tables are in `[0, 1]` (kernel-evaluated). KC4I: agreement on the interval extended by 4%, and a theorem that it never finishes if `fun` is undefined beyond `t_bound` |
| C109 | the sensitivity functions converge | the exact solutions of the combined and adjoint problems exist (linear equations, `Lemmas/LinearODE.lean`) and are smooth along the solution (`Lemmas/SensSmooth.lean`); C87 for the forward problem, C107 for the adjoint problems whose right-hand side contains the computed solution, C65/C51/C52 to identify the limit with the derivative; `Lemmas/FullRun.lean` shows that complete runs with arbitrarily small steps exist |
| C110 | the integration loop ends | `Spec/Loop.lean`: the loop as a relation between start, number of calls, exception and end (`WhileRunning`); existence by a strictly decreasing distance to `t_bound` (`C02`, `C46`, `C81`: every accepted step has at least the minimal length) and the termination of each call (C06, C39, C45, C67); for `SSV2stab` with a bound on the spectral radius, and a counterexample without it |
| C111 | smooth problems are integrated to the end | the stages are bounded near the solution (`stage_bound`, compactness), so the error norm of an attempt is at most `D h` (`attempt_small`) and, within the tube given by C87, every attempt is accepted; the invariant `GoodAt` (distance to the end more than half a step, step proposal not below it, controller memory in range) is kept by `_reassess_stepsize` and both controllers (`good_reassess`, `good_step`); `C111_controller_grows`: the real power function satisfies the assumption on the controller; `C111_err_bound`, `C111_pre_bound`: the norms of the code do; `C111_decay`: complete instance |
| C112 | the tolerances control the error | `EstimateGeneric` states that the estimate is not `o(h^(order_secondary+1))` at any point of the solution; `uniform_lower` and compactness give `‖estimate‖ >= κ h^(order_secondary+1) - L h ‖u - y(t)‖` near the solution (`est_lower`); an accepted step has error norm below one, so its estimate is at most `A tol` (`NormControls`; `C112_norm_controls` for the norm of the code); by induction over the history, using C87 for the error so far, steps are at most `D tol^(1/(order_secondary+1))`, and C87 gives the error (`C112_tolerance_error`, `C112_max_step`, `C112_arrays`); `decay_generic`, `quadrature_generic`, `C112_decay`: the hypotheses hold, with runs to the end for every tolerance. Note: `Me4`'s estimate is of higher order on linear problems with constant coefficients (its classical property), so these are excluded for `Me4` only |
| C113 | the work for a tolerance | near the solution both error norms of an attempt with step `h` are at most `M/tol * D h^(order_secondary+1)` (`est_upper`, `attempt_order`: order conditions of C22 for the estimate and for the preliminary estimates of `BS5` and `CFMR7osc`, uniform by compactness), so attempts with `h <= K tol^(1/(order_secondary+1))` are accepted and do not shorten the next step (`Steers`, proved for the power function: `C113_controller_steers`, also for the second-order controller whose factor involves the previous error norm and step ratio); an invariant over the history (`WorkAt`, `work_chain`, `work_step`) gives a lower bound `σ/2` for every accepted step but the last, and a potential argument (each rejection multiplies `h_abs` by at most `μ < 1`, each acceptance by at most `R`) bounds the rejections (`work_end`, `C113_work`); `C113_arrays` for the norm of the code, together with C112; `C113_decay` is a run for every tolerance |
| C114 | SWAG and SSV2stab in floating point | `Model/FloatTimeOther`: time arithmetic operation by operation, everything else is input; the rounding error of a sum is a float (`add_error_float`), hence after a step to the rounded end of the interval the rest is a float (`rest_after_landing`: Sterbenz, or the first subtraction dominates); the step sizes of both codes cover that rest (`next_ge`, `hmin_ge`), so the following step lands on it exactly; agreement with the exact models for `fl = id`; example in double precision from -0.7 to 0.1, on which the other methods fail (F36) |
| C115 | Nyström methods on smooth problems | C111–C113 for `nyMethod`: the method-independent parts (tube around the solution, error estimate bounded above and below on it, loop to the end, steps and rejections counted by the logarithm of the step size) are in `Lemmas/SmoothRun` for every `Cfg ℝ E W`; the estimate of the Nyström classes as a smooth function of (t, y, h) is `nyEstAt` (`Props/NystromCompletes`), its order is C71, the global error C95; `Props/NystromCompletesWitness`: the norm of the concatenated array `(u, u')`, harmonic oscillator, and quadrature problems `u'' = t^q` for which the estimate is generic |
| C116 | constants of the stiffness test | `Model/StiffConst.lean` (class attributes `stbrad`, `tanang`). The stability polynomial is computed from the table (`Lemmas/StabPoly`), its square modulus as a polynomial in `r = |z|` and `c = -cos arg z`; positivity of `1 - |R|²` (resp. `|R|² - 1`, in `1/r`) on a rectangle by subdivision with integer arithmetic (`Lemmas/PosCheck`: a sound checker, proved; the subdivision trees in `Lemmas/StabCert1-3` are generated by `tools/gen_stab.py` and checked by the kernel; the coefficients of Ts5, Pr8, Pr9 are rounded, with the error of rounding bounded). Lifted to steps (`IsRKStep`, any problem with a mode), histories of the driver, and `assessRoots` (C63) |
| C117 | constants of the stiffness test of the Nystrom methods | `Model/NyStiffConst.lean` (class attributes `tanang`, `stbre`, `stbim`). One step on a mode is a 2×2 matrix with entries polynomial in `h²a` and `hb` (`Lemmas/NyStabPoly`, computed from the table); the three Schur–Cohn conditions (1 - det, 1 ∓ trace + det) are shown positive on three charts (real pair, complex pair below and above the corner) with the checker of C116 (`Lemmas/NyCert1-3`, generated by `tools/gen_nystab.py`, checked by the kernel); a two-term recurrence with both roots inside the unit circle decays. Failure by an eigenvector with eigenvalue outside the unit circle, at rational points. `C117_complex_roots_decay` has the fraction of `stbim` for which the claim is true (F52) |
| C118 | secondary methods and error estimates of the ESDIRK methods on stiff problems | Exact stages of a mode (`LinStages`, as in C41); the secondary solution and the estimate are `P(z)/(1-dz)^m · y` with `P` computed from the tables (coefficients in ℚ(√2)); `b²·|1-dz|^{2m} - |P(z)|²` on the imaginary axis is a polynomial in y² whose non-negativity on the half line is checked by the kernel, the left half plane follows by the maximum principle (lemma `half_plane` of C41); the limit by the leading coefficients. Histories in linear mode by `C78_step_law` and `C41_linear_mode`. The factor 1+1e-20 for the KC methods is due to their decimal/rounded rational coefficients |
| C119 | inexact accelerations and starting values (Nystrom) | as C107: the stages with the two accelerations differ by at most 2δ (induction over the explicit stages, in a tube of the first order system), so one step differs by O(δ h); accumulation along histories that start δ away (`driver_error_from`) with the one-step bound of C95 |
| C120 | restarts and changes of method | a chain of solver runs as an inductive predicate (`RunChain`: each piece is a history of a new solver from the time and state of the previous one, possibly changed by `d`); nested induction over pieces and steps with the invariant `error <= (changes + D a) exp(Λ a)`, `a` the time covered so far; one-step bounds of C87 and C95, uniform over the finite list of methods |
| C121 | quantities with a constant rate | induction over histories for each driver; Runge-Kutta and Nystrom: sums of the weights of the tables (kernel computation); Nystrom dense output: linearity of the Horner and quintic evaluation and of the extra stages; SSV2stab: C44 and the cubic of C92; SWAG: the straight line satisfies the interpolation conditions of C77, and for the dense output (C48) the difference to the straight line has too many zeros in its derivative (Rolle); exact arithmetic; SWAG under the hypothesis of C46 that no norm is infinite |
| C122 | The driver loop, `rkMethod`, `nyMethod`, the early error tests and `scaledNorm`, on two problems related by a linear map. | The image of a run is defined field by field (`Solver.image`: `y`, `f`, stages mapped, all else equal). Induction over the loop and over the calls shows that each call commutes with the image; the stages by induction over the stage number. `C122_norm` is the invariance of the weighted RMS norm (real and complex). The automatic first step is excluded: `h_start` uses unweighted norms of `y` and `f`, so it does depend on the units. The stiffness test must make the same number of evaluations in both runs (it only affects `nfev`). |
| C123 | As C122, with the maps from real to complex arrays and from one to several copies of the components. | The two maps keep the weighted RMS norm of the code (`C123_norm_complex`, `C123_norm_copies`: sums over the fibres of the copy map); the runs then correspond by C122. |
| C124 | The SSV2stab driver (`chebStep`), `_stages` (`rkcStages`), `_init_step_size` and the norms of the code. | As C122: the image of a state is defined field by field, each function of the driver commutes with it, induction over the loop and over the calls. The stages by induction over the stage recurrence. The built-in estimator of the spectral radius uses the unweighted Euclidean norm, so it does depend on the units: the theorem with the code's norms is for a user function `rho_jac`, the general one assumes that the estimator commutes with the map. |
| C125 | The ESDIRK driver with Newton iteration, Jacobian and factorisation management (`eStep`), on a problem and its image under an invertible linear map `L` (matrices become `L A L⁻¹`). | As C122: images field by field, each function commutes, induction over Newton iterations, stages, attempts and calls. Exact solves (`Ring.inverse` of `M - h d J`) commute with `L`, also for singular matrices (zero on both sides). The starting data `y0`, `y0'`, `J0` and the first step are given: the automatic first step uses unweighted norms. A numerical Jacobian (scipy `num_jac`) does not commute exactly; the Jacobian is the user's function or constant. |
| C126 | The `SWAG` driver (`swStep`) with its divided differences, order and step choice, and dense output, on a problem and its image under an invertible linear map. | As C122 and C125: images field by field, each function commutes, induction over attempts and calls; the mean-based weighted norm of the code is invariant under the conversion. The first step is given. |
| C127 | The explicit driver (`step`) with the Runge-Kutta and Nystrom attempts, on a problem and the same problem with times multiplied by `a > 0`. | As C122: the converted state field by field, each function of the driver commutes with the conversion, induction over attempts and calls. The floor `h_min_b` of the minimal step is not convertible: assumption `FloorIdle`, with `C127_floor` as a sufficient condition on the interval. Negative `a`: C17. The first step is given. |
| C128 | The `SWAG` driver (`swStep`) with the coefficients of the Adams formulas, on a problem and the same problem with times multiplied by `a > 0`. | As C127; the minimal step of `SWAG` is relative to `t`, so there is no proviso. The distances `psi` are converted, `alpha`, `beta`, `sig`, `g` are ratios and do not change. The weighted norm of the code is homogeneous (`C128_norm`). The first step is given. |
| C129 | The ESDIRK driver (`eStep`) on a problem and the same problem with times multiplied by `a > 0`. | As C127, with the Jacobian divided by `a`: `h d J` and so the matrices of the Newton iterations do not change (`C129_exact_solve` for exact solves). The proviso on the absolute floor is needed only while the solver runs, and `C129_floor` derives it for a whole run from a condition on the times between `t0` and `t_bound`. Consistent initial values, the first step and the initial Jacobian are given. |
| C130 | The `SSV2stab` driver (`chebStep`), its stages (`rkcStages`) and its estimator (`rhoEst`), on a problem and the same problem with times multiplied by `a > 0`. | As C127; `h * sprad` does not change, so neither does the number of stages. The automatic first step is included. That the absolute floor is not used is read off the recorded attempts of the run. After a failed estimate the stored first guess for the eigenvector may differ by a factor (it is the derivative then); everything else corresponds (`ClockRel`). `C130_code` is for the stages and norms of the code with a user function for the spectral radius, `C130_estimator` for the power method in the Euclidean norm. `self.hmin` (the floor of the first step) is assumed to be converted, which holds if it is not the absolute floor. |
| C131 | The explicit driver (`step`) with Nystrom methods (and, for C17, Runge-Kutta methods), on a problem and its reflection in time. | The attempts are those of C127 with the factor `-1` (`ClockMethod`), the driver is shown to commute with the reflection (`St.reflect`); no proviso on the floor of the minimal step, because step sizes do not change. The first step is given. |

## 4. Findings (behaviour of the code that contradicts a natural reading)

Proved ones name the property with the witness theorem.

* F1 `Mu5Nmb` scales class arrays in place at construction (C53).
* F2 `0 < nfev_stiff_detect < n_stages` → `ZeroDivisionError` after the first successful step (C31).
* F3 `max_step < min_step`: steps may exceed `max_step` and pass `t_bound` (C01, C03).
* F4 ESDIRK may exceed `max_step` by up to 1 % (C34); SSV2stab by up to 10 %, and does not limit `first_step` (C43).
* F5 `sc_params` with `g ≥ 1`: infinite retry at error norm one (C06); "W"/"H" documented but rejected (C13).
* F6 SWAG: `min_step = 0` at `t = 0`: infinite retry (C46). F32: there also endless steps of length zero (C46).
* F7 ESDIRK: the preemptive Jacobian update does not mark the Jacobian as current.
* F8 rounding: `t + fl(tb - t) ≠ tb` is possible (outside exact arithmetic; see F36).
* F9 `NFS` is global and reset by any new solver (C09); F17 SWAG does not reset it.
* F12 `Fi5N` drops `sc_params` (C54). F13 `Fi5N` `interpolant=1`: `dense_output` modifies `y` (C72).
* F14 growth of the step is not limited with the standard controller (C07). F15 `g > 1`: a rejected attempt is retried with a longer
  step and may pass `t_bound` (C06). F16 a tiny non-zero error norm leads to a spurious `TOO_SMALL_STEP` (C58).
* F18 `stiff_a`: unguarded determinant in the first try (C62).
* F19 `dense_output()` after a failed step uses overwritten stages (C61); of `SSV2stab`, overwritten rows of the work array (C92).
* F20 infinite `t_bound`, infinite `max_step` and `t0 = 0`: `h_start` evaluates `fun` at `t = inf`.
* F21 sign error in the reduced Jacobian used for the first step of DAEs (C88).
* F22 `validate_tol` does not reject nan. F23 ESDIRK: a nan error norm ends in a `ValueError` of the LU routine (C64).
* F24 ESDIRK: controller "S" documented with other numbers than used.
* F25, F26, F29 SSV2stab `_rho`: evaluation at `v = 0`, flipped component, no upper bound from an eigenvector (C68).
* F27 `sens_forward` with `atol` given as a list and a parameter that is zero → `TypeError`; an integer `atol` always (C91). F37 `_test_functions`
  reads `fun.__name__` in its messages: a matrix given as `jac` ends as `AttributeError` (C91). F28 SSV2stab initial step: evaluates at `t + |h|` in both directions (C43).
* F30 CKdisc `twiddle[1]` never adapts (C32). F31 CKdisc: nan in the first assessment ends as `TOO_SMALL_STEP` (C33); it
  ignores `sc_params` and cannot be given `nfev_stiff_detect`.
* F33 ESDIRK: array `atol` for a DAE without `first_step` raises (C88). F34 `M = 0` is not recognised as DAE (C88). F35 a complex
  mass matrix would need `U.conj().T` instead of `U.T`.
* F36 floating point: the last step sets `t = t + |t_bound - t|` instead of `t_bound`. If it crosses zero or changes the size of `t`
  much, the sum can fall short of `t_bound`; the next step then fails with "Required step size is less than spacing
  between numbers" (C90; `-0.7 → 0.1` is an example). Explicit Runge-Kutta, CKdisc, Nyström, ESDIRK; not SWAG (extrapolates), SSV2stab.
* F38 stiffness detection: when the test does not converge (`rootre is None`) and many steps failed, `if not rootre` also holds and the user is
  warned about a complex pair of dominant roots that was not found (C94). F39 Nyström methods: a complex pair with real part
  between 0.85 and 0.9 of the limit is stiff for the test, but only 'this should not happen' is logged (C94). F40 `CKdisc` raises
  `TypeError` whenever `nfev_stiff_detect` is passed, even 0 (`cash.py:246-251`; C96). F41 `SSV2stab` with `t_bound = -inf`: the test `t_bound != np.inf` makes `hmin` relative to
  `sqrt(max)`, the first step tried is about 1e139 (C98). `SSV2stab` with `rtol = nan` raises `ValueError` in `int(round(nan))` (C98).
* F42 SWAG keeps the array returned by the first call of `fun` as `self.yp` (`shampine.py:111`) and later fills it in place (336, 412): with
  `fun = lambda t, y: y` the user's `y0`, which is also the first output point, is overwritten (C100).
* F43 CKdisc: the dense output of a fallback step keeps views of two rows of `K` (`cash.py:408-416`), which the next step overwrites; with
  `solve_ivp(dense_output=True)` the interpolants of fallback steps are wrong (C100).
* F44 ESDIRK base class: `self.yp_old = self.f.copy()` (`common.py:2096`), where `self.f` is the first evaluation at `t0`; used by the cubic
  interpolant only, which no shipped method reaches.
* F45 a `fun` that fills and returns the same array each time: the first derivative is kept without a copy in all methods except SSV2stab
  (CKdisc: in every step), and retries after rejected attempts start with an overwritten derivative (C101).
* F47 `KC4I` has a stage at `t + 26/25 h`, so the last step calls `fun` beyond `t_bound` (by 4% of the step). If `fun` is not finite there, every attempt that ends at `t_bound` is rejected and the solver never finishes: it approaches `t_bound` with ever smaller steps until it fails (C108).
* F48 `h_start` samples `fun` beyond `b` if `|b - a| < 100 small |a|` (C108).
* F49 `SSV2stab._step_impl` cuts the step to `(mmax²−1)/(1.54 sprad)` when more than `mmax` stages would be needed, and never compares the cut step with the minimal step: with spectral radius estimates that grow without bound, the times of the accepted steps have a limit before `t_bound` and the loop does not end (in floating point `t + h == t`, so it stagnates without an error). `C110_ssv2stab_needs_bound`. All other methods raise/return the too-small-step failure instead (`C110_explicit`, `C110_esdirk`, `C110_swag`).
* F50 (F49 in floating point) SSV2stab: an accepted step is never compared with the minimal step (`sommeijer.py:229-235` is reached by rejected attempts only). When the number of stages is limited (`sommeijer.py:195-197`) the step size may be below the resolution of the time: the step succeeds and `t` does not change, so that a loop over `step()` does not end (C114).
* F51 Me4: `stbrad = 3.4` (`merson.py:119`) is slightly too large. With `hλ = -1.1 + 2.85i`, `|hλ| = 3.055 < 0.9·3.4`, well inside `tanang = 20`, every step amplifies the mode by more than 1 percent (`C116_merson_exceeds`), so that the test answers "not stiff" for an unstable average step; 0.89·3.4 is right. (The sector boundary is reached near tan ≈ 2.6, not at the largest angle.)
* F52 Fi4N, Fi5N, Mu5Nmb: the rectangle of the stiffness test (`common.py:1410-1416`: `|Re| < 0.85 stbre`, `|Im| < 0.9 stbim`) is not inside the stability region. For instance Fi5N with `h r = -1.6 ± 3.5i`: the verdict is "not stiff", but equal steps of that size grow without bound (`C117_rectangle_exceeds`, one point for each method). True is 0.89·stbim for Fi4N (barely), 0.6·stbim for the other two. The real bound 0.85·stbre is right, and stbre is sharp within two percent (`C117_real_sharp`).
* F46 `TRBDF2`, `TRX2`: dense output of an empty array of times has shape `(0,)` instead of `(n, 0)` (C102).
* Minor: BS5 and CKdisc do not count a non-finite attempt in `NFS` (C09); BS5's preliminary scale is only third order (C22); the preliminary error of CFMR7osc
  equals the final one; default KC interpolants are not C1 (C76); Kv3I is L-stable only up to 1e-17 (C41); order conditions of KC4Ia and
  embedded KC methods hold up to 4e-26 only (C85); Ts5 weights sum to one up to 1e-15, Pr8/Pr9 row sums are inexact at 1e-29 (C86).

## 5. Mutation testing

`tools/mutate.py` applies one edit to the model in a scratch copy, rebuilds what depends on it and reports the theorems that
fail; `seeded/LOG.jsonl` has one line per attempt (edited definition, edit, broken claim, failing and tightened theorems).
