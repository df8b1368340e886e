{"id": "C01", "title": "Integration never passes t_bound (explicit Runge-Kutta family)", "statement": "For a solver of the explicit Runge-Kutta family (RungeKutta.step: Ts5, CK5, Me4, Pr7, Pr8, Pr9 and the Nystrom methods), every value of solver.t after any number of step() calls lies between t0 and t_bound in the direction of integration, provided max_step is not below the solver's own minimal step. Without that proviso the claim is false (witness).", "quantifier": "every right-hand side (also returning inf/nan error norms), both directions, finite or infinite t_bound, every max_step, first step, controller parameter set and every sequence of accepted/rejected attempts", "why_tests_cant": "depends on the whole history of step-size proposals; tests only see a few trajectories", "anchors": ["extensisq/common.py:RungeKutta._step_impl", "extensisq/common.py:RungeKutta._reassess_stepsize"]}
{"id": "C02", "title": "Every successful step strictly advances time", "statement": "Each successful step() of an explicit Runge-Kutta family solver moves solver.t strictly in the direction of integration by at least the minimal step, so the output times are strictly monotone.", "quantifier": "all right-hand sides, histories, directions, parameters", "why_tests_cant": "needs every step-size history", "anchors": ["extensisq/common.py:RungeKutta._step_impl", "extensisq/common.py:RungeKutta._reassess_stepsize"]}
{"id": "C03", "title": "max_step is respected (explicit family)", "statement": "No step of an explicit Runge-Kutta family solver is longer than max_step, provided max_step is not below the minimal step.", "quantifier": "all histories and parameters", "why_tests_cant": "needs every step-size history", "anchors": ["extensisq/common.py:RungeKutta._reassess_stepsize"]}
{"id": "C04", "title": "Finishing means standing exactly on t_bound; finished/failed is final", "statement": "In exact arithmetic a solver whose status is 'finished' has t == t_bound, a 'running' solver is strictly before t_bound, and step() on a finished or failed solver raises and changes nothing.", "quantifier": "all histories of step() calls", "why_tests_cant": "status protocol over unbounded histories", "anchors": ["extensisq/common.py:RungeKutta._step_impl", "scipy OdeSolver.step (external)"]}
{"id": "C05", "title": "Accepted steps satisfy the error test", "statement": "A step is accepted only if the RMS norm of the error estimate, scaled by atol + rtol*max(|y|,|y_new|), is a finite number below 1; an infinite or nan error norm is never accepted and ends the integration with a failure message. The preliminary estimate of BS5 and CFMR7osc is not infinite and not above 1 in the attempt that is accepted.", "quantifier": "all right-hand sides, vectors (real or complex), tolerances", "why_tests_cant": "must hold for every input", "anchors": ["extensisq/common.py:RungeKutta._step_impl", "extensisq/common.py:calculate_scale", "extensisq/common.py:norm"]}
{"id": "C06", "title": "step() always returns (explicit family)", "statement": "With a safety factor g < 1 (all predefined controllers) the retry loop of step() terminates for every right-hand side: it ends in acceptance, in 'Required step size is less than spacing between numbers' or in 'Overflow or underflow encountered', after a number of attempts bounded by an explicit function of h/min_step. With a user supplied g >= 1 it may retry forever (witness).", "quantifier": "all right-hand sides, all step sizes", "why_tests_cant": "termination; unbounded number of retries", "anchors": ["extensisq/common.py:RungeKutta._step_impl", "extensisq/common.py:RungeKutta._init_sc_control"]}
{"id": "C07", "title": "Growth of the step size is limited", "statement": "After an accepted step the proposed step grows at most by the maximal factor (10 until the step size is on scale, 4 afterwards) when the second order controller is active, never grows if an attempt was rejected in the same step, and shrinks at most by the minimal factor. While the standard controller is active the explicit family applies no upper limit (witness); the ESDIRK family does.", "quantifier": "all error histories", "why_tests_cant": "depends on all error norms in the history", "anchors": ["extensisq/common.py:RungeKutta._step_impl", "extensisq/common.py:ESDIRK._assess_error_and_stepsize"]}
{"id": "C08", "title": "Cost accounting: number of function evaluations", "statement": "A step() of an explicit Runge-Kutta solver that makes a attempts evaluates fun exactly a*(n_stages-1) + (a if FSAL else 1) times when it succeeds (BS5 and CFMR7osc save the last evaluations of attempts rejected by the preliminary error estimate); a sequence of steps costs the sum.", "quantifier": "all histories", "why_tests_cant": "cost depends on the accept/reject history", "anchors": ["extensisq/common.py:RungeKutta._step_impl", "extensisq/common.py:RungeKutta._rk_stage", "extensisq/common.py:RungeKutta._comp_sol_err", "extensisq/bogacki.py:BS5._step_impl", "extensisq/calvo.py:CFMR7osc._step_impl"]}
{"id": "C09", "title": "NFS counts rejected attempts", "statement": "The public counter NFS equals the number of rejected attempts since the last construction of a solver; because it is global, constructing another solver resets it for all. (Exception: BS5 does not count an attempt that ends the step with the overflow message.)", "quantifier": "all interleavings of constructions and steps of several solvers", "why_tests_cant": "shared global state, arbitrary histories", "anchors": ["extensisq/common.py:NFS", "extensisq/__init__.py"]}
{"id": "C10", "title": "The stored derivative is the derivative at the current point", "statement": "After construction and after every successful step of an explicit Runge-Kutta solver, solver.f == fun(solver.t, solver.y) (FSAL or not), so the first stage of the next step is correct; failed attempts do not disturb it.", "quantifier": "all right-hand sides and histories", "why_tests_cant": "invariant over unbounded histories", "anchors": ["extensisq/common.py:RungeKutta._step_impl", "extensisq/bogacki.py:BS5._step_impl"]}
{"id": "C11", "title": "Tolerance validation", "statement": "validate_tol raises exactly when atol has a wrong shape, atol has a negative entry, rtol is not a float or rtol is negative; otherwise the returned rtol lies in [10*epsneg, 0.1], every returned atol is at least sqrt(tiny) > 0, and values already inside the bounds are unchanged.", "quantifier": "all tolerances", "why_tests_cant": "all inputs", "anchors": ["extensisq/common.py:validate_tol"]}
{"id": "C12", "title": "Error scale and RMS norm", "statement": "The error scale is strictly positive in every component and symmetric in its two states; the RMS norm is non-negative, absolutely homogeneous, zero only at zero, satisfies the triangle inequality; error norm < 1 bounds every component by sqrt(n)*scale, and componentwise errors within the scale give norm <= 1.", "quantifier": "all vectors (real or complex), all dimensions n>=1", "why_tests_cant": "all inputs and dimensions", "anchors": ["extensisq/common.py:calculate_scale", "extensisq/common.py:norm"]}
{"id": "C13", "title": "Controller parameter validation", "statement": "sc_params is accepted exactly when it is one of 'G','S','standard' or a 4-tuple (a falsy value selects the method default); anything else raises ValueError. In particular the documented 'W' and 'H' are rejected.", "quantifier": "all argument values", "why_tests_cant": "all inputs", "anchors": ["extensisq/common.py:RungeKutta._init_sc_control", "extensisq/common.py:ESDIRK._init_sc_control"]}
{"id": "C14", "title": "Minimal step parameters", "statement": "The minimal node distance used for min_step lies in [1e-3, 1], is a lower bound of every non-zero node distance unless clipped at 1e-3, so that min_step > 0 and distinct stage times of an executed step differ by at least 10*epsneg*(|t|+h) (when not clipped).", "quantifier": "all node vectors", "why_tests_cant": "all inputs", "anchors": ["extensisq/common.py:RungeKutta._init_min_step_parameters"]}
{"id": "C15", "title": "Automatic first step is usable", "statement": "The automatically selected first step has the sign of the integration direction, is non-zero, is never larger than the larger of |b-a| and 100*small*|a|, and never larger than 1/Lipschitz estimate (unless that is below the floor 100*small*|a|); it costs at most four evaluations. The Lipschitz estimate never exceeds a Lipschitz constant of the right-hand side, so the step is at least as long as the tolerance allows for the true bounds of the derivative and its dependence on state and time. The estimate of the time derivative is exact for right-hand sides affine in time. The tolerance parameter lies between the roots of the smallest and largest tolerance; the time dependence is sampled in the direction of b at the documented distance; giving the time derivative of a right-hand side affine in time saves one evaluation and changes nothing else. Real and complex problems.", "quantifier": "all right-hand sides, real and complex, a != b", "why_tests_cant": "all inputs", "anchors": ["extensisq/common.py:h_start"]}
{"id": "C16", "title": "Linear invariants are conserved exactly by explicit Runge-Kutta methods", "statement": "If a linear functional l satisfies l(fun(t,y)) = 0 for all t,y, then l(solver.y) == l(y0) after any number of steps of any tableau, whatever the step sizes and rejections, and also at every point of the dense output.", "quantifier": "all problems, all tableaus, all step histories", "why_tests_cant": "universal over problems and histories", "anchors": ["extensisq/common.py:RungeKutta._step_impl", "extensisq/common.py:RungeKutta._comp_sol_err", "extensisq/common.py:HornerDenseOutput"]}
{"id": "C17", "title": "Time reversal symmetry", "statement": "Integrating y' = f(t,y) towards a smaller t_bound gives the mirrored output of integrating y' = -f(-t,y) towards the larger -t_bound: same y, mirrored t, same accept/reject decisions and step sizes.", "quantifier": "all problems and histories", "why_tests_cant": "universal over problems and histories", "anchors": ["extensisq/common.py:RungeKutta._step_impl", "extensisq/common.py:RungeKutta._reassess_stepsize"]}
{"id": "C18", "title": "Linear change of variables", "statement": "One Runge-Kutta step (solution, stages and error vector) commutes with every linear map T between state spaces intertwining the right-hand sides.", "quantifier": "all linear maps, problems, tableaus, steps", "why_tests_cant": "universal over problems", "anchors": ["extensisq/common.py:RungeKutta._rk_stage", "extensisq/common.py:RungeKutta._comp_sol_err"]}
{"id": "C19", "title": "Time can be treated as a state", "statement": "If the rows of A sum to C and B sums to 1, solving y'=f(t,y) and solving the autonomous system (t,y)'=(1,f(t,y)) with the same step give the same result. All shipped rational explicit tableaus satisfy the hypotheses.", "quantifier": "all right-hand sides, t, h", "why_tests_cant": "universal over problems", "anchors": ["extensisq/common.py:RungeKutta._rk_stage", "extensisq/*.py coefficient tables"]}
{"id": "C20", "title": "Quadrature exactness", "statement": "For y' = g(t) with g a polynomial of degree < order, a step of each shipped rational explicit method returns the exact solution, and its error estimate is exactly zero for degree < order_secondary.", "quantifier": "all polynomials of the degree bound, all t, h, y", "why_tests_cant": "universal over polynomials", "anchors": ["extensisq/cash.py:CK5", "extensisq/bogacki.py:BS5", "extensisq/merson.py:Me4", "extensisq/prince.py", "extensisq/calvo.py:CFMR7osc"]}
{"id": "C21", "title": "Linear problems: Taylor agreement up to the order", "statement": "For y' = L y with any linear operator L, a step of each shipped rational explicit method equals sum_{k<=s} c_k (hL)^k y with c_k = 1/k! for k <= order.", "quantifier": "all linear operators on all spaces, all h, y", "why_tests_cant": "universal over problems", "anchors": ["extensisq/common.py:RungeKutta._rk_stage", "extensisq/common.py:RungeKutta._comp_sol_err"]}
{"id": "C22", "title": "Order conditions", "statement": "Each shipped rational tableau satisfies all Butcher order conditions (every rooted tree up to the order) for the main method and for the embedded method.", "quantifier": "all rooted trees up to the claimed order", "why_tests_cant": "the shipped tests check them in floating point with a tolerance and only for orders up to 7", "anchors": ["extensisq/*.py coefficient tables", "tests/order_conditions.py"]}
{"id": "C23", "title": "Horner dense output evaluates the interpolation polynomial", "statement": "HornerDenseOutput(t) equals y_old + sum_j Q_j x^(j+1) with x = (t-t_old)/h, returns y_old at t_old, and returns y_old + h*K^T(row sums of P) at t; if the row sums of P equal B (and 0 for the extra row) it returns y at t.", "quantifier": "all coefficient matrices, times", "why_tests_cant": "all inputs", "anchors": ["extensisq/common.py:HornerDenseOutput"]}
{"id": "C24", "title": "Cubic Hermite dense output", "statement": "CubicDenseOutput reproduces y_old,y at the ends with derivatives f_old,f, so the piecewise output is C1, and reproduces every cubic polynomial exactly.", "quantifier": "all data, all cubic polynomials", "why_tests_cant": "all inputs", "anchors": ["extensisq/common.py:CubicDenseOutput"]}
{"id": "C25", "title": "Quintic Hermite dense output", "statement": "QuinticHermiteDenseOutput reproduces position, velocity and acceleration at both ends, its velocity component is the derivative of its position component, it reproduces quintic polynomials exactly, and equals the alternative formula _call_impl_old.", "quantifier": "all data", "why_tests_cant": "all inputs", "anchors": ["extensisq/common.py:QuinticHermiteDenseOutput"]}
{"id": "C26", "title": "Nystrom Horner dense output", "statement": "HornerDenseOutputNystrom returns the old state at t_old; its velocity is the derivative of its position whenever Pp = P * (2,3,...), and at t it returns the new state if the row sums of P and Pp equal B and Bp.", "quantifier": "all data", "why_tests_cant": "all inputs", "anchors": ["extensisq/common.py:HornerDenseOutputNystrom"]}
{"id": "C27", "title": "Shipped interpolants are continuous", "statement": "For each shipped rational method the dense output is continuous at both step ends (row sums of P equal B), and C1 where claimed: derivative at the start is the first stage, at the end is the derivative at the new point.", "quantifier": "all problems and steps of each method", "why_tests_cant": "universal over problems", "anchors": ["extensisq/*.py P tables"]}
{"id": "C28", "title": "Dense output requests do not change the integration", "statement": "Calling dense_output() does not change t, y, f or the next step of a solver, whichever interpolant is selected; the exception is Fi5N with interpolant=1, which replaces the position at the output point.", "quantifier": "all interleavings of step() and dense_output()", "why_tests_cant": "arbitrary interleavings", "anchors": ["extensisq/bogacki.py:BS5._dense_output_impl", "extensisq/fine.py:Fi5N._dense_output_impl", "extensisq/murua.py:Mu5Nmb._dense_output_impl"]}
{"id": "C29", "title": "Root finder of the stiffness test", "statement": "stiff_c(alpha,beta) returns the two complex roots of x^2+alpha x+beta=0, the first of the larger magnitude.", "quantifier": "all real alpha, beta", "why_tests_cant": "all inputs", "anchors": ["extensisq/common.py:stiff_c", "extensisq/common.py:stiff_b"]}
{"id": "C30", "title": "Stiffness detection does not influence the solution", "statement": "The trajectory (t, y, step sizes, accept/reject decisions) does not depend on nfev_stiff_detect nor on what the stiffness test reports, as long as the test itself does not raise; nfev_stiff_detect = 0 disables it.", "quantifier": "all histories", "why_tests_cant": "non-interference over all runs", "anchors": ["extensisq/common.py:RungeKutta._diagnose_stiffness"]}
{"id": "C31", "title": "Stiffness detection interval must be at least n_stages", "statement": "With 0 < nfev_stiff_detect < n_stages the first successful step raises ZeroDivisionError although the argument is accepted by the constructor; with nfev_stiff_detect >= n_stages or 0 it never does; the counters left behind by the exception are those of an admissible interval.", "quantifier": "all values of nfev_stiff_detect, all histories", "why_tests_cant": "all inputs", "anchors": ["extensisq/common.py:RungeKutta._diagnose_stiffness", "extensisq/common.py:RungeKutta._init_stiffness_detection"]}
{"id": "C32", "title": "CKdisc retry loop terminates and its adaptive factors stay in range", "statement": "Every step() of CKdisc returns; its twiddle factors never drop below 1.1 and never increase (so the second one, which starts at 1.1, is constant), its quit factors stay within [1, 10000], and each retry uses at most 0.9 times the previous step size.", "quantifier": "all right-hand sides and histories", "why_tests_cant": "termination and invariants over all histories", "anchors": ["extensisq/cash.py:CKdisc._step_impl"]}
{"id": "C33", "title": "CKdisc accepts only solutions that pass an error test, and stays within the interval", "statement": "A CKdisc step ends in a fifth order solution with error measure < 1, or a third or second order fallback solution at 3/5 or 1/5 of the attempted step whose scaled error is < 1; time advances strictly and never passes t_bound.", "quantifier": "all right-hand sides and histories", "why_tests_cant": "universal", "anchors": ["extensisq/cash.py:CKdisc._step_impl"]}
{"id": "C34", "title": "ESDIRK steps stay inside the interval", "statement": "ESDIRK solvers never pass t_bound, advance strictly, finish exactly on t_bound; steps are at most 1.01*max_step (max_step itself can be exceeded by up to one percent in the last step: witness).", "quantifier": "all right-hand sides, Newton outcomes, histories", "why_tests_cant": "needs every step-size history", "anchors": ["extensisq/common.py:ESDIRK._step_impl", "extensisq/common.py:ESDIRK._reassess_stepsize"]}
{"id": "C35", "title": "ESDIRK step() always returns", "statement": "With g < 1 the retry loop of an ESDIRK step terminates for every pattern of Newton failures and error rejections; the Jacobian is re-evaluated at most once inside the loop.", "quantifier": "all right-hand sides, all Newton outcome patterns", "why_tests_cant": "termination over all patterns", "anchors": ["extensisq/common.py:ESDIRK._step_impl"]}
{"id": "C36", "title": "Linear mode of ESDIRK is consistent", "statement": "When jac is given as a constant array, the assertion 'J and LU must be current' never fires, jac is never called, and each stage is solved with a factorisation made for exactly the current step size.", "quantifier": "all right-hand sides and histories", "why_tests_cant": "assertion safety over all histories", "anchors": ["extensisq/common.py:ESDIRK._solve_implicit_stage", "extensisq/common.py:ESDIRK._step_impl", "extensisq/common.py:ESDIRK._preemptive_lu_and_jac"]}
{"id": "C37", "title": "LU factorisation always belongs to the stored Jacobian", "statement": "In every Newton iteration of an ESDIRK solver the LU factors in use are those of M - h_LU*d*J with J the currently stored Jacobian (never a stale Jacobian) and h_LU the recorded step; the flag current_J is only set if the stored Jacobian is that of the present time and solution.", "quantifier": "all histories of Jacobian updates, failures and step changes", "why_tests_cant": "cache coherence over all histories", "anchors": ["extensisq/common.py:ESDIRK._step_impl", "extensisq/common.py:ESDIRK._preemptive_lu_and_jac"]}
{"id": "C38", "title": "Stiffly accurate solution and stage identities", "statement": "The solution returned by an ESDIRK step equals y + h*K^T B and is the last stage value, the stored yp is the last stage derivative; if each stage equation is solved exactly then M K_i = fun(t + c_i h, Y_i) and, for a DAE, the algebraic constraints hold exactly at the new solution.", "quantifier": "all problems, mass matrices, steps", "why_tests_cant": "universal over problems", "anchors": ["extensisq/common.py:ESDIRK._step_impl", "extensisq/common.py:ESDIRK._solve_implicit_stage"]}
{"id": "C39", "title": "Newton iteration contract", "statement": "The simplified Newton iteration evaluates fun at most 5 times per stage, reports convergence only if the last update norm is tiny or rate*norm < kappa*(1-rate) with rate < 1, stops at a non-finite derivative without convergence, and in linear mode returns after one iteration; the rate it reports is the largest ratio of successive update norms that was observed (and the one implied by the updates assessed). A stage is given up only if the derivative at an iterate is not finite or, from the second iteration on, if the iteration diverges or is predicted not to reach kappa within the five iterations. The starting values of all stages are consistent (their coefficients sum up to one).", "quantifier": "all residual histories", "why_tests_cant": "universal", "anchors": ["extensisq/common.py:ESDIRK._solve_implicit_stage"]}
{"id": "C40", "title": "Linear invariants survive inexact Newton iterations", "statement": "If l(fun)=0, l J = 0 and M is the identity, an ESDIRK step conserves l(y) exactly no matter how many Newton iterations were done or whether they converged tightly.", "quantifier": "all problems, all iteration counts", "why_tests_cant": "universal", "anchors": ["extensisq/common.py:ESDIRK._solve_implicit_stage", "extensisq/common.py:ESDIRK._step_impl"]}
{"id": "C41", "title": "A-stability and L-stability of the ESDIRK methods", "statement": "On y' = lambda y with Re(h lambda) <= 0 a step of TRBDF2, TRX2, KC3I, KC4I, KC4Ia or Kv3I with exactly solved stages never amplifies. With growing |h lambda| the solution after one step tends to zero for TRBDF2, KC3I, KC4I and KC4Ia, to less than 1e-17 times the previous one for Kv3I (whose coefficients are rounded), and to the previous one for TRX2, which does not damp on the imaginary axis. In linear mode (constant Jacobian) the solver does solve the stages exactly, so that whatever step sizes it chooses no history amplifies an eigencomponent with Re(lambda) <= 0 in the direction of integration.", "quantifier": "all complex lambda in the left half plane, all h, all histories in linear mode", "why_tests_cant": "uncountable domain", "anchors": ["extensisq/hosea.py", "extensisq/kennedy.py", "extensisq/kvaerno.py", "extensisq/common.py:ESDIRK._step_impl", "extensisq/common.py:ESDIRK._solve_implicit_stage"]}
{"id": "C42", "title": "SSV2stab stage number keeps the step inside the stability interval", "statement": "In every attempt of SSV2stab the number of stages m satisfies 2 <= m <= mmax and 1.54*h*sprad <= m^2 - 1; reducing to mmax never increases the step.", "quantifier": "all spectral radii and step sizes", "why_tests_cant": "universal", "anchors": ["extensisq/sommeijer.py:SSV2stab._step_impl"]}
{"id": "C43", "title": "SSV2stab step() returns and stays inside the interval", "statement": "Every retry of SSV2stab uses at most 0.88 times the previous step, hence step() returns; time never passes t_bound; a step may exceed max_step by up to 10 percent and first_step is not limited by max_step (witnesses).", "quantifier": "all right-hand sides and histories", "why_tests_cant": "termination", "anchors": ["extensisq/sommeijer.py:SSV2stab._step_impl"]}
{"id": "C44", "title": "SSV2stab stages are consistent", "statement": "For y' = const the Chebyshev recursion returns y + h*const for every number of stages m, linear invariants are conserved for every m, and the stage times satisfy the same recursion as the stage values of y'=1.", "quantifier": "all m, h, problems", "why_tests_cant": "all stage numbers m", "anchors": ["extensisq/sommeijer.py:SSV2stab._stages"]}
{"id": "C45", "title": "SWAG order and index safety", "statement": "SWAG keeps 1 <= k <= k_max through every history of successes and failures, changes the order by at most one per accepted step (or drops to one after three failures), and never indexes outside its work arrays for any k_max in 1..12.", "quantifier": "all k_max, all error histories", "why_tests_cant": "invariant over all histories", "anchors": ["extensisq/shampine.py:SWAG._step_impl"]}
{"id": "C46", "title": "SWAG stays inside the interval and respects max_step", "statement": "SWAG never passes t_bound, steps never exceed max_step, each retry uses at most half of the step before; retries end because of the minimal step, except at t = 0 where the minimal step is zero: there a persistently nan error test retries forever, and an infinite one ends in successful steps of length zero (witnesses). If no norm is infinite, all accepted times are distinct.", "quantifier": "all right-hand sides and histories", "why_tests_cant": "termination and bounds", "anchors": ["extensisq/shampine.py:SWAG._step_impl"]}
{"id": "C47", "title": "SWAG restores its difference table after a failed attempt", "statement": "After a failed attempt with order k the differences below k and the psi values below k-1 are exactly what they were before the attempt (exact arithmetic), and the repeated attempt reads nothing else of those arrays.", "quantifier": "all difference tables, step sizes, orders", "why_tests_cant": "universal", "anchors": ["extensisq/shampine.py:SWAG._step_impl"]}
{"id": "C48", "title": "SWAG interpolant matches the step ends", "statement": "After a regular step of order k the SWAG dense output is a polynomial of degree at most k+2 which returns the old solution at t_old and the new solution at t, and whose derivative is the stored right-hand side in the last k+1 points, so that consecutive pieces join with a continuous derivative. After the extrapolated last step it is the straight line along the old derivative.", "quantifier": "all tables", "why_tests_cant": "universal", "anchors": ["extensisq/shampine.py:SwagDenseOutput"]}
{"id": "C49", "title": "Forward sensitivity: packing and equations", "statement": "sens_forward's combined state packs y and the sensitivity matrix column by column; packing and unpacking are inverse; the combined derivative's y part is fun and its j-th column block is J s_j + dfdp_j; the y part is independent of the sensitivities.", "quantifier": "all sizes ny, np, all functions", "why_tests_cant": "all sizes", "anchors": ["extensisq/sensitivity.py:sens_forward"]}
{"id": "C50", "title": "Forward sensitivity: declared sparsity is sound", "statement": "Every entry of the combined right-hand side depends only on the state entries flagged in jac_sparsity; with use_approx_jac the Jacobian passed is exact with respect to the sensitivities and its first block is the Jacobian of fun.", "quantifier": "all sizes and functions", "why_tests_cant": "all sizes and functions", "anchors": ["extensisq/sensitivity.py:sens_forward"]}
{"id": "C51", "title": "Adjoint sensitivity equals forward sensitivity (exact solves)", "statement": "If the forward and backward problems are solved exactly, sens_adjoint_end returns dg/dp + dg/dy*s(tf), with s the solution of the forward variational equation, which is the derivative of p -> g(tf, y(tf;p), p).", "quantifier": "all smooth problems, all parameters", "why_tests_cant": "universal, needs calculus", "anchors": ["extensisq/sensitivity.py:sens_adjoint_end"]}
{"id": "C52", "title": "Adjoint sensitivity of an integral (exact solves)", "statement": "If both problems are solved exactly, sens_adjoint_int returns the integral of dg/dp + dg/dy*s over the interval, which is the derivative of G with respect to p, and G is the integral of g.", "quantifier": "all smooth problems", "why_tests_cant": "universal, needs calculus", "anchors": ["extensisq/sensitivity.py:sens_adjoint_int"]}
{"id": "C53", "title": "Solver objects are independent of previously created solvers", "statement": "The error coefficients used by a new solver do not depend on how many solvers were created before. This fails for Mu5Nmb: its constructor scales the class-level arrays in place, so the k-th solver uses 0.75^k times the tabulated coefficients.", "quantifier": "all construction histories", "why_tests_cant": "history dependence over unbounded histories", "anchors": ["extensisq/murua.py:Mu5Nmb.__init__"]}
{"id": "C54", "title": "Controller selection reaches the solver", "statement": "The sc_params argument determines the controller of the created solver. This fails for Fi5N, whose constructor drops the argument (any value, even an invalid one, behaves like the default).", "quantifier": "all argument values", "why_tests_cant": "all inputs", "anchors": ["extensisq/fine.py:Fi5N.__init__"]}
{"id": "C55", "title": "Nystrom methods are exact for uniform motion and accept only second order problems", "statement": "A Nystrom solver is only constructed if the first half of fun(t0,y0) equals the velocity half; for zero acceleration a step returns x + h v, v exactly; and the step equals a Runge-Kutta step of the first order system when A = Ap*Ap and B = Bp*Ap.", "quantifier": "all problems and steps", "why_tests_cant": "universal", "anchors": ["extensisq/common.py:RungeKuttaNystrom"]}
{"id": "C56", "title": "Piecewise cubic output of TRBDF2/TRX2", "statement": "The dense output of TRBDF2 and TRX2 interpolates the solution and the stage derivatives at the step ends and at the intermediate point, in both directions.", "quantifier": "all problems and steps", "why_tests_cant": "universal", "anchors": ["extensisq/hosea.py:HS._dense_output_impl"]}
{"id": "C57", "title": "The step size controller only reads data that exists", "statement": "Whatever the history of step() calls, the second order controller of the explicit family never reads an undefined attribute (previous error norm, previous step) and never takes a power of a non-positive number: step() raises no TypeError/AttributeError, and the previous step it uses has the sign of the integration direction.", "quantifier": "all right-hand sides, histories, directions, parameters", "why_tests_cant": "which branch is active depends on the whole history", "anchors": ["extensisq/common.py:RungeKutta._step_impl"]}
{"id": "C58", "title": "Proposed step sizes stay positive; spurious failure for tiny errors", "statement": "The step size proposed after any history is positive, so the next attempt is well defined. But a tiny non-zero error norm makes the standard controller propose such a huge step that the minimal step exceeds the remaining interval, and a perfectly smooth problem then fails with 'Required step size is less than spacing between numbers' (witness).", "quantifier": "all histories; concrete witness", "why_tests_cant": "depends on history; extreme magnitudes", "anchors": ["extensisq/common.py:RungeKutta._step_impl", "extensisq/common.py:RungeKutta._reassess_stepsize"]}
{"id": "C59", "title": "Local accuracy of a step", "statement": "For every right-hand side that is smooth (infinitely often differentiable) near (t, y), the value computed by a step of length h of each shipped rational explicit method differs from the exact solution through (t, y) by O(h^(order+1)) as h tends to 0 (either direction), and the error estimate is O(h^(order_secondary+1)).", "quantifier": "all smooth right-hand sides on all finite-dimensional spaces, all solutions, both directions", "why_tests_cant": "an asymptotic statement over all problems", "anchors": ["extensisq/common.py:RungeKutta._step_impl", "extensisq/common.py:RungeKutta._comp_sol_err", "extensisq/common.py:RungeKutta._estimate_error", "extensisq/*.py coefficient tables"]}
{"id": "C60", "title": "Local accuracy of the dense output", "statement": "For every right-hand side that is smooth (infinitely often differentiable) near (t, y), the dense output of a step of length h of each shipped rational explicit method differs from the exact solution through (t_old, y_old) by O(h^(q+1)) as h tends to 0, uniformly over the step, with q the order of the interpolant: Me4 3, CK5 4, CFMR7osc 5, Pr7 6, BS5 4 ('free') or 5 ('low' and 'best').", "quantifier": "all smooth right-hand sides on all finite-dimensional spaces, all points of the step, both directions", "why_tests_cant": "an asymptotic statement over all problems, uniform over the step", "anchors": ["extensisq/common.py:RungeKutta._dense_output_impl", "extensisq/common.py:HornerDenseOutput", "extensisq/bogacki.py:BS5._dense_output_impl"]}
{"id": "C61", "title": "dense_output() after a failed step", "statement": "dense_output() describes the last successful step; a failed step() leaves t, y and the cubic Hermite output unchanged. This fails for methods with an interpolation table: the attempts of the failed step have overwritten the stages, so the object returned afterwards no longer ends in y (witness).", "quantifier": "all histories for the cubic output; concrete witness for the table output", "why_tests_cant": "needs a history with a failure after a success", "anchors": ["extensisq/common.py:RungeKutta._dense_output_impl", "extensisq/common.py:RungeKutta._step_impl"]}
{"id": "C62", "title": "Cost and safety of the stiffness test", "statement": "One stiffness test evaluates fun at most 24 times (exactly three times per pass of the power iteration that does not end it), not at all if the last step differs from the average step by more than a factor of five or the remaining work is predicted to be small, and in exact arithmetic never divides by zero (also for a zero solution or a zero error estimate), whatever the right-hand side; the only exception is the determinant of the first quadratic fit in the first try (witness).", "quantifier": "all right-hand sides, states, weights, step sizes", "why_tests_cant": "data-dependent iteration over all right-hand sides", "anchors": ["extensisq/common.py:stiff_a", "extensisq/common.py:stiff_b", "extensisq/common.py:stiff_d"]}
{"id": "C63", "title": "What the stiffness test reports about linear problems", "statement": "For a locally linear problem the roots reported by the stiffness test are approximate eigenvalues of havg*J: a real root with a relative residual of at most 0.1 percent, or the roots of a quadratic that annihilates some vector under havg*J up to 0.1 percent; a problem is reported stiff only if the dominant root lies in the left half plane, off the imaginary axis, at 0.9 stability radii or more. If the start vector lies in an invariant plane of the problem, the two roots of its characteristic polynomial are reported exactly.", "quantifier": "all linear problems, start vectors, weights", "why_tests_cant": "universal over problems; iteration", "anchors": ["extensisq/common.py:stiff_a", "extensisq/common.py:stiff_b", "extensisq/common.py:stiff_c", "extensisq/common.py:stiff_d", "extensisq/common.py:RungeKutta._diagnose_stiffness"]}
{"id": "C64", "title": "ESDIRK step() raises no exception and keeps its step size factors in range", "statement": "Whatever the history, right-hand side and Newton outcomes, a step of a running ESDIRK solver raises no exception (no failing assertion, no arithmetic on None, no call of a missing Jacobian function), except for the linear algebra error after an error norm of nan (witness); the factor from one step to the step proposed next lies between min(safety, min_factor) and the maximal factor (10 at the start, 4 later), and after a rejection the step does not grow.", "quantifier": "all right-hand sides, Newton outcomes, histories", "why_tests_cant": "which attributes are defined depends on the whole history", "anchors": ["extensisq/common.py:ESDIRK._step_impl", "extensisq/common.py:ESDIRK._assess_error_and_stepsize", "extensisq/common.py:ESDIRK._preemptive_lu_and_jac"]}
{"id": "C65", "title": "Forward sensitivities are derivatives", "statement": "If its combined problem is solved exactly, sens_forward returns the solution at tf and the derivative of that solution with respect to the parameters, for every continuously differentiable right-hand side whose derivatives jac and dfdp are, every differentiable initial value and both directions of time.", "quantifier": "all smooth problems, all parameters, both directions", "why_tests_cant": "universal over problems, needs calculus", "anchors": ["extensisq/sensitivity.py:sens_forward"]}
{"id": "C66", "title": "Jacobians handed to implicit solvers by the adjoint functions are exact", "statement": "The backward problems of sens_adjoint_end and sens_adjoint_int are affine in their state and the Jacobian functions passed to implicit solvers are exactly their derivative.", "quantifier": "all sizes, functions, states", "why_tests_cant": "all sizes and functions", "anchors": ["extensisq/sensitivity.py:sens_adjoint_end", "extensisq/sensitivity.py:sens_adjoint_int"]}
{"id": "C67", "title": "SSV2stab uses a spectral radius that belongs to the problem at hand", "statement": "Every attempt of SSV2stab uses a spectral radius obtained from rho_jac or the power method for this problem; without const_jac it is at most 24 accepted steps old, with rho_jac it is the value at the current point, and after a rejection it is re-estimated at the current point; with const_jac it is estimated once.", "quantifier": "all problems, all histories of accepted and rejected steps", "why_tests_cant": "invariant over all histories", "anchors": ["extensisq/sommeijer.py:SSV2stab._step_impl"]}
{"id": "C68", "title": "SSV2stab spectral radius estimator", "statement": "The power method of SSV2stab makes at most 50 evaluations (exactly 50 when it reports failure), never divides by zero, never returns a negative value and never more than 1.2 times the Lipschitz constant of the right-hand side (apart from values below 0.012/max_step which are irrelevant); for a Jacobian that is a multiple of the identity on the relevant subspace it returns exactly 1.2|lambda|. It is not always an upper bound (witness), and in two degenerate cases it evaluates the right-hand side far away from the solution (witnesses).", "quantifier": "all right-hand sides, states and stored vectors", "why_tests_cant": "universal over functions", "anchors": ["extensisq/sommeijer.py:SSV2stab._rho"]}
{"id": "C69", "title": "SSV2stab is stable with the number of stages it chooses", "statement": "For every number of stages m >= 2 and every step with 1.54 h |lambda| <= m^2-1, the result for y' = lambda y (lambda <= 0) is the old value times a factor between 0 and 1; for y' = L y + g(t) with symmetric negative semidefinite L a step never moves two solutions apart; hence the solver never moves away from an equilibrium, in any history, if the spectral radius estimates are not too low.", "quantifier": "all m >= 2, all steps, all symmetric linear problems, all histories", "why_tests_cant": "unbounded in m, dimension and number of steps", "anchors": ["extensisq/sommeijer.py:SSV2stab._stages", "extensisq/sommeijer.py:SSV2stab._step_impl"]}
{"id": "C70", "title": "SSV2stab has order two with every number of stages", "statement": "For every smooth right-hand side and every m >= 2, the local error of a step of SSV2stab is O(h^3), and its error estimate is O(h^3).", "quantifier": "all m >= 2, all smooth problems", "why_tests_cant": "universal over m and functions", "anchors": ["extensisq/sommeijer.py:SSV2stab._stages", "extensisq/sommeijer.py:SSV2stab._step_impl"]}
{"id": "C71", "title": "Order of the Nystrom methods", "statement": "For every acceleration that is smooth at the start of the step (for MR6NN: and does not depend on the velocity), position and velocity after a step of size h of MR6NN, Fi4N and Fi5N differ from the solution of u''=a(t,u,u') by O(h^(order+1)) and the error estimate is O(h^(order_secondary+1)), with the orders advertised by the class.", "quantifier": "all smooth problems, all step sizes tending to 0", "why_tests_cant": "universal over functions", "anchors": ["extensisq/common.py:RungeKuttaNystrom._rk_stages", "extensisq/fine.py:Fi4N", "extensisq/fine.py:Fi5N", "extensisq/mikkawy.py:MR6NN"]}
{"id": "C72", "title": "Dense output of the Nystrom methods", "statement": "The dense output of a Nystrom step returns the old state at the start and the new state at the end of the step; its velocity is the derivative of its position (not for Fi5N interpolant 2) and its acceleration at the ends is that of the problem; between the grid points position and velocity are accurate of order 6/5 (MR6NN, Fi5N interpolant 1) and 5/5 (Fi5N interpolant 2). dense_output() leaves the solver unchanged, except for Fi5N with interpolant=1, which replaces the position of the solver by the end value of the interpolant so that the stored acceleration no longer belongs to the stored state.", "quantifier": "all problems, steps and points of evaluation", "why_tests_cant": "universal over functions and points", "anchors": ["extensisq/common.py:RungeKuttaNystrom._dense_output_impl", "extensisq/fine.py:Fi5N._dense_output_impl", "extensisq/murua.py:Mu5Nmb._dense_output_impl", "extensisq/common.py:HornerDenseOutputNystrom"]}
{"id": "C73", "title": "The step size controller follows its formula and aims below the tolerance", "statement": "After every successful step of an explicit method the proposed step is the length of the step times the factor of the selected controller (standard: safety*err^(-1/(q+1)); second order: clip(safety_sc*err^b1*err_old^b2*(h/h_old)^a)), computed with the error norms and lengths of this and the previous step and limited to 1 after a rejection; the first step uses the standard controller. If the error norm behaves like C h^(q+1), the standard controller proposes a step with error norm safety^(q+1), and this is also the stationary point of every second order controller.", "quantifier": "all problems, histories, controllers", "why_tests_cant": "all histories; exact powers", "anchors": ["extensisq/common.py:RungeKutta._step_impl", "extensisq/common.py:RungeKutta._init_sc_control"]}
{"id": "C74", "title": "Accuracy of the CKdisc solutions and fallback solutions", "statement": "The fifth order solution of CKdisc has local error O(h^6); the third order fallback solution at 3/5 of the attempted step has local error O(h^4), the second order one at 1/5 has O(h^3); the estimates used to accept or assess them are O(h^5), O(h^3) and O(h^2).", "quantifier": "all smooth right-hand sides, all starting points", "why_tests_cant": "needs all right-hand sides and the limit h -> 0", "anchors": ["extensisq/cash.py:CKdisc"]}
{"id": "C75", "title": "CKdisc dense output", "statement": "After every successful CKdisc step, whichever order it was accepted with, the dense output starts in the old and ends in the new solution, with the derivatives of the right-hand side at both ends; for a fifth order step its error is O(h^5) uniformly over the step.", "quantifier": "all problems, histories and accepted orders", "why_tests_cant": "universal over histories", "anchors": ["extensisq/cash.py:CKdisc._dense_output_impl"]}
{"id": "C76", "title": "Interpolants of KC3I, KC4I, KC4Ia and Kv3I", "statement": "The dense output of these methods returns the old solution at t_old, and the new solution at t up to the rounding of the published coefficients (2e-14 times |h| sum|K_i|; exactly for KC3I), for both interpolants; with interpolant='C1' its derivative is the stored derivative at t_old and, up to 1e-13 sum|K_i| (exactly for KC3I), at t. Any option other than 'C0' and 'C1' is rejected.", "quantifier": "every method of the family, every reachable state and successful step, every problem, both options", "why_tests_cant": "ranges over all states and stage derivatives; a test checks one trajectory to a tolerance", "anchors": ["extensisq/kennedy.py:KC", "extensisq/common.py:ESDIRK._dense_output_impl", "extensisq/kvaerno.py:Kv3I"]}
{"id": "C77", "title": "SWAG steps are variable-mesh Adams-Bashforth-Moulton steps (PECE)", "statement": "A regular SWAG step of order k first predicts with the polynomial of degree k through the current solution whose slopes are the stored derivatives in the last k accepted points (with their actual, non-uniform spacing), evaluates the right-hand side there, and returns the value of the polynomial of degree k+1 which in addition has that slope at the new time; then it stores the derivative in the new point.", "quantifier": "all right-hand sides, histories of step sizes and orders, failed attempts in between", "why_tests_cant": "the coefficients are computed by a recursion which depends on the whole history of step sizes and orders", "anchors": ["extensisq/shampine.py:SWAG._step_impl"]}
{"id": "C78", "title": "ESDIRK error control and step size controller", "statement": "A step of an ESDIRK method is accepted only if the norm of its error estimate, h*sum(E_i K_i), for filtered methods premultiplied by M (M-h d J)^-1, is below 1. The step proposed after an undisturbed step is its length times the factor of the controller (standard: safety*err^(-1/(q+1)); second order: clip(safety_sc*err^b1*err_old^b2*(h/h_old)^a), evaluated with error norms and signed lengths of the last two steps), at most 10 before and 4 after the step size is on scale; the first step uses the standard controller; after a step with rejected attempts or a reduced step the proposal is not longer than the step.", "quantifier": "all problems, histories, Newton outcomes, controller parameters", "why_tests_cant": "depends on the whole history of accepted and rejected attempts", "anchors": ["extensisq/common.py:ESDIRK._step_impl", "extensisq/common.py:ESDIRK._assess_error_and_stepsize"]}
{"id": "C79", "title": "ESDIRK work counters and renewal of the Jacobian", "statement": "For every step() of an ESDIRK method nfev grows by the number of evaluations made in the Newton iterations of all its attempts, nlu by the number of attempts with new factors, njev by the number of renewals of the Jacobian, NFI by the attempts in which an iteration failed and NFS by those rejected by the error test; the Jacobian is renewed before a step exactly under the documented condition on iteration count, rate and step change; the iteration count and rate kept for the next step are the maxima over the stages of the accepted attempt.", "quantifier": "all problems, histories and Newton outcomes", "why_tests_cant": "sum over a data-dependent number of attempts and iterations", "anchors": ["extensisq/common.py:ESDIRK._step_impl", "extensisq/common.py:ESDIRK._preemptive_lu_and_jac", "extensisq/common.py:ESDIRK._solve_implicit_stage"]}
{"id": "C80", "title": "SSV2stab work counters", "statement": "After any history of SSV2stab, nfev is one for the constructor, one for the automatic initial step size (if a step was tried) and m for every attempt with m stages; maxm is the largest m used; nfesig the number of evaluations by the power method, which is not used when rho_jac is given; every call of the power method starts from a solution point with its derivative and the vector left by the previous call.", "quantifier": "all problems and histories of accepted, rejected and failed attempts", "why_tests_cant": "sum over an unbounded history", "anchors": ["extensisq/sommeijer.py:SSV2stab._step_impl", "extensisq/sommeijer.py:SSV2stab._rho"]}
{"id": "C81", "title": "SSV2stab step size control", "statement": "Each step of SSV2stab first tries the size proposed by the previous one (or first_step, or the automatic initial size), extended or cut to hit t_bound within 10 percent and shortened if more than the maximal number of stages is needed; a rejected attempt is followed by one for 0.8|h|/err^(1/3). The proposal after the first accepted step is 0.8|h|/err^(1/3), after any later one 0.8|h| (err_old^(1/3)|h|)/(|h_old| err^(2/3)), limited to a factor between 0.1 and 10, max_step, and the minimal step; both aim at 0.8 times the step for which the error norm is one.", "quantifier": "all problems and histories", "why_tests_cant": "depends on the two last accepted steps of any history", "anchors": ["extensisq/sommeijer.py:SSV2stab._step_impl"]}
{"id": "C82", "title": "SWAG error estimate and acceptance", "statement": "A SWAG attempt of order k is accepted exactly if the norm of the difference of the Adams-Moulton solutions of the orders k+1 and k is at most one; the step returns the one of order k+1. The estimates for the orders k, k-1 and k-2 are the error constants of the Adams formulas (rounded to three digits) times the norms of the divided differences of the stored derivatives scaled with the step size.", "quantifier": "all problems, meshes, orders and histories", "why_tests_cant": "depends on recursively updated difference tables over any history", "anchors": ["extensisq/shampine.py:SWAG._step_impl"]}
{"id": "C83", "title": "SWAG order and step size selection", "statement": "After a regular SWAG step of order k and size h the next order is k-1, k or k+1 and the next size 2h, h or a reduced one by the rules of Shampine and Gordon: in the start phase order and step are raised until a failure, a sign of a better lower order or the maximal order; later the order with the smallest estimate is taken where order k+1 is only considered after k+1 equal steps; the step is doubled if the estimate then stays below one half, kept if it is below one half, else reduced to between a half and nine tenths.", "quantifier": "all problems and histories", "why_tests_cant": "case distinction over estimates and history", "anchors": ["extensisq/shampine.py:SWAG._step_impl"]}
{"id": "C84", "title": "SWAG work, failures, start phase and stiffness warnings", "statement": "A SWAG step with j failed attempts costs j+2 evaluations and counts j failed steps; its first attempt has the planned size limited by max_step and t_bound; the first three failures each halve the step, from the third on the order is one; a step within 4u|t| of t_bound is extrapolated at no cost. A failing step leaves time and solution as they were. Without failures and order reductions each step of the start phase doubles the step and raises the order. With k_max > 4 a warning is issued at every 51st consecutive step of order at most four and at no other.", "quantifier": "all problems and histories", "why_tests_cant": "sums over unbounded histories", "anchors": ["extensisq/shampine.py:SWAG._step_impl"]}
{"id": "C85", "title": "Order of the ESDIRK methods", "statement": "For every smooth right-hand side and regular mass matrix, the solution after one step of size h of TRBDF2 and TRX2 (order 2), KC3I and Kv3I (order 3) and KC4I (order 4) differs from the exact one by O(h^(order+1)) if the stage equations are solved up to O(h^order); in linear mode the solver solves them exactly. The error estimates have order 2 (TRBDF2, TRX2, Kv3I), also after filtering, and the embedded solutions of TRBDF2 and TRX2 order 3. KC4Ia and the embedded methods of KC3I, KC4I and KC4Ia satisfy their order conditions (order 4; 2, 3, 3) up to 4e-26 because of rounded coefficients, so that the Taylor coefficients of the local error up to the order are at most 4e-26 M, M depending on the problem only. The orders are not higher than this.", "quantifier": "all smooth right-hand sides, all initial points, all rooted trees up to the order", "why_tests_cant": "a limit statement over an infinite class of problems", "anchors": ["extensisq/hosea.py", "extensisq/kennedy.py", "extensisq/kvaerno.py", "extensisq/common.py:ESDIRK._step_impl"]}
{"id": "C86", "title": "Order of the methods with decimal coefficients", "statement": "With the coefficients as written in the source, Ts5, Pr8 and Pr9 satisfy the order condition of every rooted tree up to order 5, 8 and 9 with a defect of at most 2e-15, 4e-29 and 1e-29; the error weights vanish up to order 4, 6 and 7 with the same tolerance, and the interpolants have order 4, 7 and 8 (coefficient defects 4e-14, 5e-27, 6e-26). Consequently, for every smooth autonomous problem (Ts5: also non-autonomous), the Taylor coefficients up to the order of the local error of a step, of the error estimate and of the dense output are at most these tolerances times a constant that depends on the problem only. The orders are not higher.", "quantifier": "all rooted trees up to the order; all smooth right-hand sides, starting points and points of the step", "why_tests_cant": "order conditions quantify over all trees, the error statement over all problems", "anchors": ["extensisq/tsitouras.py:Ts5", "extensisq/prince.py:Pr8", "extensisq/prince.py:Pr9", "extensisq/common.py:RungeKutta._step_impl", "extensisq/common.py:RungeKutta._dense_output_impl"]}
{"id": "C87", "title": "Convergence", "statement": "Let the exact solution of an initial value problem with smooth (infinitely often differentiable) right-hand side exist on the closed interval from t0 to b. There are constants C and h*, depending on the problem and the method only, such that for each of Me4, CK5, BS5, CFMR7osc and Pr7, every tolerance, norm, controller, first step and direction, and every history of step() calls in which no step was longer than H <= h* (in particular with max_step = H), the computed solution differs from the exact one by at most C H^order at every visited point, and the dense output of every successful step by at most C H^(q+1) on the whole step, q being the order of the interpolant; for each of the three interpolants of BS5 by at most C H^5.", "quantifier": "all smooth problems, all histories of steps of any length and number", "why_tests_cant": "a uniform bound over an unbounded number of steps and all problems", "anchors": ["extensisq/common.py:RungeKutta._step_impl", "extensisq/common.py:RungeKutta._dense_output_impl", "extensisq/cash.py", "extensisq/bogacki.py", "extensisq/calvo.py", "extensisq/merson.py", "extensisq/prince.py"]}
{"id": "C88", "title": "Initialisation of DAEs", "statement": "For M y' = f(t, y) with singular M (given to an ESDIRK method) the constructor rejects the problem as of higher index exactly if the given point is not of index one. Otherwise, on success, the initial values are the given ones (if they pass the test of the algebraic equations) or satisfy the algebraic equations with the same M y as the given ones, with a warning exactly if they differ from them by more than the tolerance; the initial derivative is the only vector that satisfies M y' = f and the time-differentiated algebraic equations, so it is the derivative of every exact solution through that point (for an exact Jacobian and time derivative). A nonzero M is treated as a DAE exactly if it is singular (singular values zero or above the limit); the algebraic part consists of the singular values below the limit. Known defects: the Jacobian of the reduced problem used for the first step size has the wrong sign in the Schur term; M = 0 is not recognised; an array atol makes the constructor raise if there are two or more differential equations and no first_step.", "quantifier": "all problem sizes, mass matrices, right-hand sides and Jacobians", "why_tests_cant": "statement about all matrices and functions, uniqueness", "anchors": ["extensisq/common.py:ESDIRK._handle_M", "extensisq/common.py:ESDIRK._consistent_ICs", "extensisq/common.py:ESDIRK.__init__"]}
{"id": "C89", "title": "Times advance in floating point", "statement": "With every operation on the time, step size and minimal step rounded to nearest (double precision, subnormal numbers included, any rule for ties), a successful step of an explicit Runge-Kutta, Nystr\u00f6m, CKdisc or ESDIRK method moves the time in the direction of integration by at least four fifths of the minimal step, whatever the right-hand side and the error estimates are; in a run all times are distinct and ordered. In a step not below the minimal step the rounded times of the stages with distinct nodes are distinct and in the order of the nodes (nodes in [0, 1], not closer than 1e-3); this holds for the nodes of the shipped explicit methods after they are rounded to floats.", "quantifier": "all floating-point times, step sizes, intervals, max_step values, error estimates and rounding rules for ties, precision at least 16 bits", "why_tests_cant": "rounding cases cannot be enumerated", "anchors": ["extensisq/common.py:RungeKutta._init_min_step_parameters", "extensisq/common.py:RungeKutta._reassess_stepsize", "extensisq/common.py:RungeKutta._step_impl", "extensisq/common.py:ESDIRK._reassess_stepsize"]}
{"id": "C90", "title": "End of the interval in floating point", "statement": "With rounded time arithmetic a step of an explicit Runge-Kutta, Nystr\u00f6m or ESDIRK method does not go past t_bound by more than 2u|t_bound - t| (u the unit roundoff) and not at all if t_bound - t is a floating-point number; the last step lands within 2u|t_bound - t| of t_bound, exactly if the difference is a floating-point number, as when t = 0 or when the step is not longer than |t| and |t_bound|. Known defect: if the last step lands short of t_bound the following step always fails with the message about a too small step (step size factor at least 0.24); this happens in double precision for t = -0.7, t_bound = 0.1 and every right-hand side that accepts the step.", "quantifier": "all floating-point times, step sizes, intervals, error estimates and rounding rules for ties", "why_tests_cant": "rounding cases cannot be enumerated", "anchors": ["extensisq/common.py:RungeKutta._reassess_stepsize", "extensisq/common.py:RungeKutta._step_impl", "extensisq/common.py:ESDIRK._reassess_stepsize"]}
{"id": "C91", "title": "Argument checks of the sensitivity functions", "statement": "sens_forward starts to integrate exactly if y0 is a float64 vector of some length ny, dy0dp has shape (ny, np) with np the number of parameters, p is not a scalar, t_eval (if given) ends at the end of the interval, fun, dfdp and jac can be called with (t0, y0, *p) and return arrays of shape (ny,), (ny, np), (ny, ny), rtol is a float, and atol is a float or an array of length ny (or a list of that length, if no parameter is zero). The adjoint functions start exactly if y0 and p are float64 vectors and the six functions return the documented shapes, g an array of length one, and a given sol_y has a dense output. Otherwise an exception is raised before anything is integrated: for functions with a name AssertionError if they cannot be called and ValueError for a wrong shape; objects without __name__ give AttributeError instead.", "quantifier": "all argument combinations", "why_tests_cant": "all inputs", "anchors": ["extensisq/sensitivity.py:_test_functions", "extensisq/sensitivity.py:sens_forward", "extensisq/sensitivity.py:sens_adjoint_end", "extensisq/sensitivity.py:sens_adjoint_int"]}
{"id": "C92", "title": "Dense output of SSV2stab", "statement": "After every successful step of SSV2stab dense_output() returns a function with the values of the solution and the slopes of the right-hand side at both ends of the step, so consecutive pieces join with continuous derivative; on a step from the exact solution it is accurate to O(h^3) over the whole step, with any number of stages. A failed step() destroys the data: whatever the reason of the failure and the history, the work array then holds scratch data in place of the old solution and slope.", "quantifier": "all problems, histories, step sizes, stage numbers; smooth right-hand sides for the accuracy", "why_tests_cant": "all histories; asymptotic statement over all problems", "anchors": ["extensisq/sommeijer.py:SSV2stab._dense_output_impl", "extensisq/sommeijer.py:SSV2stab._step_impl"]}
{"id": "C93", "title": "Convergence of SSV2stab", "statement": "On an interval on which the exact solution exists, the solution computed by SSV2stab in any history of steps not longer than a small H differs from the exact one by at most C*H^2, and so does the dense output; C depends on the problem and the maximal number of stages only, not on tolerances, spectral radii, step-size controller or the number of steps.", "quantifier": "all smooth problems, tolerances, histories, numbers of stages chosen", "why_tests_cant": "asymptotic statement over all problems and all step sequences", "anchors": ["extensisq/sommeijer.py:SSV2stab._step_impl", "extensisq/sommeijer.py:SSV2stab._stages", "extensisq/sommeijer.py:SSV2stab._dense_output_impl"]}
{"id": "C94", "title": "Which warnings the stiffness detection gives", "statement": "For every result of the stiffness test: a Runge-Kutta method warns of a stiff real root or a stiff complex pair exactly if the dominant root has that form, lies in the left half plane without a comparable root in the right half plane, is not near the imaginary axis and reaches 0.9 stability radii; it warns of oscillations exactly if many steps failed recently and the roots are near the imaginary axis or the test did not converge; there is at most one warning and the messages marked as impossible do not occur. The same holds for the Nystrom methods with their limits on real and imaginary part, except that exactly the complex pairs with a real part between 0.85 and 0.9 of the limit (and a small imaginary part) are found stiff without any warning; both defects have witnesses.", "quantifier": "all results of the stiffness test, all method constants", "why_tests_cant": "case analysis over real-valued roots, thresholds", "anchors": ["extensisq/common.py:RungeKutta._diagnose_stiffness", "extensisq/common.py:RungeKuttaNystrom._diagnose_stiffness", "extensisq/common.py:stiff_a"]}
{"id": "C95", "title": "Convergence of the Nystrom methods", "statement": "Let the exact solution of y'' = acc(t, y, y') with smooth acc exist on the closed interval from t0 to b. There are constants C and h*, depending on the problem and the method only, such that for MR6NN (acc independent of y'), Fi4N and Fi5N, every tolerance, norm, controller, first step and direction, and every history of step() calls in which no step was longer than H <= h* (in particular with max_step = H), position and velocity differ from the exact ones by at most C H^order at every visited point; for the interpolants of MR6NN and Fi5N whose order is established (C72) the dense output of every successful step differs by at most C H^min(order, q+1) on the whole step, q being the order of the interpolant.", "quantifier": "all smooth second order problems, all histories of steps of any length and number", "why_tests_cant": "a uniform bound over an unbounded number of steps and all problems", "anchors": ["extensisq/common.py:RungeKuttaNystrom._comp_sol_err", "extensisq/common.py:RungeKuttaNystrom._dense_output_impl", "extensisq/murua.py", "extensisq/fine.py"]}
{"id": "C96", "title": "Construction of explicit solvers", "statement": "A shipped explicit Runge-Kutta method can be constructed exactly if max_step is positive, rtol is a float and not negative, atol has no negative entry and is a scalar or a vector of the length of y0, fun returns the dtype of y0, nfev_stiff_detect is a nonnegative int, sc_params is falsy, one of the predefined names or a tuple of four numbers, and first_step (if given) is positive and not longer than the interval; each exception is raised only for its own reason. A constructed solver satisfies all assumptions on the solver constants that the properties of step() need (for tuples: if the safety factor is in (0, 1]), integrates in the direction of t_bound with the validated tolerances, and its run stays in the interval. A given first_step is used as is after one evaluation of fun; otherwise h_start is called with an interval that ends at t_bound or after max_step, whatever comes first, and for a finite interval of positive length the first step is positive after at most five evaluations. Stiffness detection gets the given number of evaluations. The Nystrom methods accept in addition only second order problems. Known defect: CKdisc cannot be constructed if nfev_stiff_detect is given.", "quantifier": "all arguments, intervals, first steps, controllers", "why_tests_cant": "all argument combinations; real-valued arguments", "anchors": ["extensisq/common.py:RungeKutta.__init__", "extensisq/common.py:RungeKutta._init_stiffness_detection", "extensisq/common.py:RungeKutta._init_sc_control", "extensisq/common.py:RungeKuttaNystrom.__init__", "extensisq/cash.py:CKdisc.__init__"]}
{"id": "C97", "title": "Construction of the implicit (ESDIRK) solvers", "statement": "An ESDIRK method can be constructed exactly if max_step is positive, the tolerances are right (C11), the controller and its parameters are allowed, the Jacobian is absent, a matrix of the size of the problem or a function returning one, the mass matrix is absent, a vector or a square matrix of that size, first_step (if given) is positive and not longer than the interval, and the initial values of a DAE are accepted (and h_start, if needed, does not raise). The linear mode is used exactly if the Jacobian is given as a matrix; a vector mass matrix means a diagonal one; the problem is treated as a DAE exactly if a mass matrix is given and it has a singular value below the limit. A constructed solver satisfies the assumptions the properties of step() need, its step sizes, tolerances and Newton tolerance are those documented, and its run stays inside the interval.", "quantifier": "all arguments, problem sizes, mass matrices, Jacobian forms", "why_tests_cant": "all argument combinations; real-valued arguments", "anchors": ["extensisq/common.py:ESDIRK.__init__", "extensisq/common.py:ESDIRK._handle_M", "extensisq/common.py:ESDIRK._validate_jac"]}
{"id": "C98", "title": "Construction of SSV2stab and SWAG", "statement": "SSV2stab can be constructed exactly if max_step, the tolerances and first_step are right (as for the other methods), rtol is not nan, const_jac is a bool and rho_jac is absent or a function that returns a positive float at the initial point; SWAG exactly if the common arguments are right and k_max is an int from 1 to 12. The constructed solvers satisfy the assumptions their other properties need: direction of t_bound, the steps of SSV2stab limited by the least of max_step, the interval and sqrt(max), at least two stages, the number of stages limited by the rounded sqrt(rtol/(10 uround)); a SWAG solver starts in the direction of integration with the given first_step or the one of h_start, which is called with an interval ending at t_bound or after max_step. Known defect: with t_bound = -inf, no max_step and no first_step the first step SSV2stab tries is at least 10 uround sqrt(max), about 1e139, for every problem.", "quantifier": "all arguments", "why_tests_cant": "all argument combinations; real-valued arguments", "anchors": ["extensisq/sommeijer.py:SSV2stab.__init__", "extensisq/shampine.py:SWAG.__init__"]}
{"id": "C99", "title": "Convergence of the methods with decimal coefficients", "statement": "Ts5, Pr8 and Pr9 have coefficients rounded to decimals, so that their error does not tend to zero with the step size. For a smooth problem with a solution on the interval from t0 to t_bound, the error of every run with steps of at most H (small enough) is at most C H^order plus a floor, which is explicit: the size of the rounding (2e-15 for Ts5, 4e-29 for Pr8, 1e-29 for Pr9) times a factor that depends on the interval, the Lipschitz constant and the derivatives of the right-hand side along the solution, provided the floor is smaller than half the radius in which these constants hold. The dense output has the same error with C H^(q+1), twice the floor and a term proportional to H and to the rounding of the interpolation coefficients. C and the limit of H do not depend on tolerances, controller, first step or number of steps.", "quantifier": "all smooth problems, solver configurations and histories of steps", "why_tests_cant": "all problems and all step sequences", "anchors": ["extensisq/tsitouras.py:Ts5", "extensisq/prince.py:Pr8", "extensisq/prince.py:Pr9", "extensisq/common.py:RungeKutta._step_impl"]}
{"id": "C100", "title": "Arrays that were handed out are not changed later", "statement": "The array y0 and matrices supplied by the user, the state solver.y after construction and after each step, the data of every dense output and the values returned by dense outputs are never changed by later steps, dense outputs or evaluations, also if a call was left by an exception of user code: they keep the contents they had when they were handed over. This holds for Me4, CK5, Ts5, Pr7, Pr8, Pr9, BS5, CFMR7osc, the Nystrom methods (Fi5N with interpolant 0, 2, 3), all ESDIRK methods and SSV2stab, even if fun keeps references to its arguments and results and returns arrays it has seen before (such as its argument). SWAG: if fun returns a new array each time. Exceptions: SWAG with a fun that returns its argument changes y0; the dense output of CKdisc for a fallback step is changed by the next step; Fi5N with interpolant 1 changes solver.y in dense_output.", "quantifier": "all array contents, outcomes of tests, numbers of iterations, sequences of calls and points at which a call is left by an exception", "why_tests_cant": "all interleavings of steps, dense outputs, evaluations and exceptions", "anchors": ["extensisq/common.py:RungeKutta", "extensisq/common.py:RungeKuttaNystrom", "extensisq/common.py:ESDIRK", "extensisq/sommeijer.py:SSV2stab", "extensisq/shampine.py:SWAG", "extensisq/cash.py:CKdisc._dense_output_impl", "extensisq/fine.py:Fi5N._dense_output_impl"]}
{"id": "C101", "title": "Sharing of memory does not influence the results", "statement": "Whenever a solver reads an array, passes it to fun or jac, or hands it out, the array has the contents it would have if every assignment made a copy: in-place changes through one name are never seen through another name. So results do not depend on which arrays share memory. This holds for the methods and the behaviour of fun listed in C100; for SSV2stab also if fun fills and returns the same array in each call. The other methods keep the first array returned by fun without a copy, so that such a fun makes them use a wrong derivative after a rejected attempt.", "quantifier": "all array contents, outcomes of tests, numbers of iterations, sequences of calls and points at which a call is left by an exception", "why_tests_cant": "all interleavings of steps, dense outputs, evaluations and exceptions", "anchors": ["extensisq/common.py:RungeKutta", "extensisq/common.py:RungeKuttaNystrom", "extensisq/common.py:ESDIRK", "extensisq/sommeijer.py:SSV2stab", "extensisq/shampine.py:SWAG", "extensisq/cash.py:CKdisc", "extensisq/bogacki.py:BS5"]}
{"id": "C102", "title": "Dense output for arrays of times", "statement": "A dense output object called with an array of m times returns an array of shape (n, m) whose column j is exactly what the call with the single time j returns (shape (n,)); the points do not influence each other, also where a work array is shared between the points (SWAG). This holds for all dense output classes and any order, number or position of the times. Exception: the piecewise cubic output of TRBDF2 and TRX2 returns an array of shape (0,) for an empty array of times.", "quantifier": "all states, interpolation data, numbers and positions of times, initial contents of work arrays", "why_tests_cant": "all lengths of arrays and all data", "anchors": ["extensisq/common.py:HornerDenseOutput._call_impl", "extensisq/common.py:CubicDenseOutput._call_impl", "extensisq/common.py:HornerDenseOutputNystrom._call_impl", "extensisq/common.py:QuinticHermiteDenseOutput._call_impl", "extensisq/hosea.py:PiecewiseCubicDenseOutput._call_impl", "extensisq/shampine.py:SwagDenseOutput._call_impl", "extensisq/shampine.py:LinearDenseOutput._call_impl"]}
{"id": "C103", "title": "ESDIRK methods converge with their order", "statement": "For M y' = f(t, y) with a regular mass matrix, and f smooth along the solution and Lipschitz in y, the solutions of TRBDF2, TRX2 (order 2), KC3I, Kv3I (3) and KC4I (4) differ from the exact solution by at most C (max_step^order + delta) for every history of step() calls, whatever sizes the error control chooses, where delta bounds the residuals of the stage equations left by the Newton iterations; the residuals are at most a constant times the last Newton update, which passed the convergence test. KC4Ia converges with order 4 down to a floor due to its rounded coefficients. In linear mode (constant Jacobian given, M y' = J y + r(t)) the residuals are zero: the error is at most C max_step^order without further assumptions.", "quantifier": "all problems of the class, solvers, histories of step calls, step sizes up to a threshold", "why_tests_cant": "a limit statement for all histories and step sizes", "anchors": ["extensisq/common.py:ESDIRK._step_impl", "extensisq/common.py:ESDIRK._solve_implicit_stage", "extensisq/hosea.py", "extensisq/kennedy.py", "extensisq/kvaerno.py"]}
{"id": "C104", "title": "The stiffness test sees weighted real and complex arrays correctly", "statement": "The dot products of the stiffness test are those of the components divided by their weights, which are positive. For a real or complex problem that is linear near (t, y) the reported roots are eigenvalues of h J up to a relative residual of 0.1 percent in the weighted norm (or the roots of a quadratic that annihilates a vector to this accuracy), where for a complex problem J need only be real-linear. The answer and the number of evaluations do not depend on the units or (complex) phases of the components, on their order, or on whether a real problem is solved in complex arithmetic.", "quantifier": "all right-hand sides, states, weights, scalings, permutations", "why_tests_cant": "needs all vectors and problems", "anchors": ["extensisq/common.py:stiff_a", "extensisq/common.py:RungeKutta._diagnose_stiffness"]}
{"id": "C105", "title": "SWAG converges: steps and dense output", "statement": "For a right-hand side smooth along the exact solution on [t0, t_bound], there are a constant and a longest step such that after any number of step() calls of SWAG, whatever step sizes (shrinking or doubling) and orders up to k_max it chose, the error is at most the constant times the sum of h * D^(k+1) over the steps, where k is the order used and D the length of the piece of mesh the formula reaches over (the square of its length for the extrapolated last step). With max_step = H the error is O(H^2), up to the square of the tiny interval over which the last step may be extrapolated. The dense output has the same bounds everywhere.", "quantifier": "all smooth right-hand sides, solutions, tolerances with finite norms, histories of steps and orders", "why_tests_cant": "a statement about a limit over all step sequences", "anchors": ["extensisq/shampine.py:SWAG._step_impl", "extensisq/shampine.py:SwagDenseOutput", "extensisq/shampine.py:LinearDenseOutput"]}
{"id": "C106", "title": "Dense output of the ESDIRK methods converges", "statement": "In the setting of C103 the dense output converges too, anywhere in any successful step, forward or backward: with steps of at most H and residuals of at most delta, the cubic splines of TRBDF2 and TRX2 differ from the exact solution by at most C (H^2 + delta); the interpolants 'C0' and 'C1' of KC3I by at most C (H^3 + delta); those of KC4I and Kv3I by at most C (H^order + delta) plus a term of size 3e-13 H due to their rounded coefficients; those of KC4Ia the same plus the floor of its rounded coefficients. The same bounds hold with max_step = m instead of H for everything the solver ever shows.", "quantifier": "all smooth right-hand sides with a Lipschitz constant, regular mass matrices, histories of step sizes, times within the steps, interpolants", "why_tests_cant": "a statement about a limit over all step sequences and all times", "anchors": ["extensisq/common.py:ESDIRK._dense_output_impl", "extensisq/hosea.py:HS._dense_output_impl", "extensisq/kennedy.py:KC", "extensisq/kennedy.py:KC3I", "extensisq/kennedy.py:KC4I", "extensisq/kennedy.py:KC4Ia", "extensisq/kvaerno.py:Kv3I"]}
{"id": "C107", "title": "Inexact right-hand sides and starting values", "statement": "If fun returns values within delta of a smooth right-hand side f, at all points near the exact solution of y' = f(t, y), and y0 is within delta of its starting value, then after any history of step() calls of an explicit Runge-Kutta solver with steps of at most H the solution is within C (H^order + delta) of the exact one: errors of the data (interpolated tables, inner iterations, rounding) are not amplified by the number of steps, and the order is kept (up to the floor of methods with decimal coefficients). fun need not be continuous. In particular two solvers of the same problem, with different tolerances, first steps, norms or data within delta, agree to this accuracy at equal times.", "quantifier": "all smooth problems, all functions near the right-hand side, starting values, solvers, histories of step calls", "why_tests_cant": "quantifies over all perturbed functions, step sequences and limits", "anchors": ["extensisq/common.py:RungeKutta._step_impl", "extensisq/common.py:RungeKutta._comp_sol_err"]}
{"id": "C108", "title": "fun is called between t0 and t_bound only", "statement": "A function need not be meaningful outside of the interval of integration: if two functions agree between t0 and t_bound, solvers given one or the other return the same solution, statuses and failures from every step() call, including rejected attempts. This holds for all explicit Runge-Kutta and Nystroem methods, for SWAG, for SSV2stab with a given first_step, for the ESDIRK methods other than KC4I (for fun and jac), and for the estimate of the first step unless the interval is shorter than 100 units of roundoff of t0. Exceptions: SSV2stab without first_step samples fun on the wrong side of t0 when it integrates backwards (C43). KC4I calls fun up to 4 percent of the last step beyond t_bound; with a function that is not finite there it never reaches t_bound.", "quantifier": "all pairs of functions, problems, solvers, histories of step calls", "why_tests_cant": "quantifies over all functions and over all internal calls in all histories", "anchors": ["extensisq/common.py:RungeKutta._step_impl", "extensisq/common.py:RungeKuttaNystrom._comp_sol_err", "extensisq/common.py:ESDIRK._step_impl", "extensisq/common.py:h_start", "extensisq/shampine.py:SWAG._step_impl", "extensisq/sommeijer.py:SSV2stab._step_impl", "extensisq/kennedy.py:KC4I"]}
{"id": "C109", "title": "The sensitivity functions converge", "statement": "Let fun be smooth in time, state and parameters, jac and dfdp (and dgdy, dgdp) its exact derivatives, and let the solution exist on the closed interval for all nearby parameters. With one of the explicit methods with rational coefficients and steps of at most H, every history of the solves made by sens_forward, sens_adjoint_end and sens_adjoint_int gives results with errors bounded by a constant of the problem: sens_forward returns the solution and its derivatives with respect to the parameters within C H^order at every point; sens_adjoint_end and sens_adjoint_int return the derivative of the output (and the output) within C (H^order + delta) if the supplied continuous solution sol_y.sol is within delta of the exact solution, whatever its regularity; with the default method BS5 (any interpolant) for both solves, within C H^5.", "quantifier": "all smooth parametrised problems and outputs, numbers of states and parameters, histories of both solves, directions, step sequences", "why_tests_cant": "limits over all step sequences, derivatives of an unknown solution", "anchors": ["extensisq/sensitivity.py:sens_forward", "extensisq/sensitivity.py:sens_adjoint_end", "extensisq/sensitivity.py:sens_adjoint_int", "extensisq/bogacki.py:BS5._dense_output_impl"]}
{"id": "C110", "title": "The integration loop ends", "statement": "For a finite t_bound the loop `while solver.status == 'running': solver.step()` ends, for every right-hand side, error estimate and behaviour of the iterations. For the explicit Runge-Kutta and Nystrom methods, CKdisc, the ESDIRK methods and SWAG (started away from t=0) it ends after at most a fixed multiple of |t_bound - t0| / h_min + 1 calls of step(), without an exception (given legal options), with status finished (then, unless max_step is below the minimal step, exactly on t_bound) or failed. For SSV2stab the same holds with a bound which depends on a bound of the spectral radius estimates; without such a bound the loop need not end, because the step cut by the stability limit is not compared with the minimal step.", "quantifier": "all right-hand sides, options, starting values, error estimates, outcomes of the Newton iterations and spectral radius estimates, numbers of calls of step()", "why_tests_cant": "termination for every problem: a test sees finitely many runs that ended", "anchors": ["extensisq/common.py:RungeKutta._step_impl", "extensisq/common.py:ESDIRK._step_impl", "extensisq/common.py:RungeKuttaNystrom", "extensisq/cash.py:CKdisc._step_impl", "extensisq/shampine.py:SWAG._step_impl", "extensisq/sommeijer.py:SSV2stab._step_impl"]}
{"id": "C111", "title": "Smooth problems are integrated to the end", "statement": "Let fun be smooth along a solution which exists on the closed interval from t0 to t_bound, and atol >= a > 0. For each explicit method with rational coefficients (with its preliminary error test) there is h* > 0 such that for every max_step <= h*, every rtol >= 0, every starting step and any interval of the stiffness detection: the loop over step() ends without an exception and without a single rejected step; it ends with status finished exactly on t_bound, or with the failure for a too small step at less than a minimal step from t_bound; and the error is at most C max_step^order. If the minimal step is at most half of min(first_step, max_step, |t_bound - t0|), only the first can happen, for every choice of sc_params with positive weight of the current error, after at most 2 |t_bound - t0| / min(first_step, max_step, |t_bound - t0|) calls of step().", "quantifier": "all smooth problems, dimensions, real and complex arrays, tolerances, controllers, starting steps, max_step <= h*", "why_tests_cant": "the solver's success on every smooth problem: no finite set of problems shows it, and the claim is about all histories of the controller", "anchors": ["extensisq/common.py:RungeKutta._step_impl", "extensisq/common.py:RungeKutta._reassess_stepsize", "extensisq/common.py:RungeKutta._init_sc_control", "extensisq/common.py:norm", "extensisq/common.py:calculate_scale", "extensisq/bogacki.py:BS5._step_impl", "extensisq/calvo.py:CFMR7osc._step_impl"]}
{"id": "C112", "title": "The tolerances control the error", "statement": "Let fun be smooth along a solution y which exists on the closed interval from t0 to t_bound, and let the error estimate of the method along y be nowhere of smaller order than its generic order h^(order_secondary+1). For each explicit method with rational coefficients there are constants C and h* such that for every max_step <= h*, all atol > 0 and rtol >= 0 which are at most tol, every step-size controller, first step and history of step() calls: the error of the computed solution is at most C tol^(order/(order_secondary+1)) (so at most C tol if tol <= 1), and no accepted step is longer than C tol^(1/(order_secondary+1)). C does not depend on the tolerances.", "quantifier": "all smooth problems with generic error estimate, dimensions, real and complex arrays, tolerances, controllers, histories", "why_tests_cant": "the relation between tolerance and global error holds for all problems and tolerances, also arbitrarily small ones; tests sample a few", "anchors": ["extensisq/common.py:RungeKutta._step_impl", "extensisq/common.py:RungeKutta._estimate_error_norm", "extensisq/common.py:norm", "extensisq/common.py:calculate_scale", "extensisq/merson.py:Me4", "extensisq/cash.py:CK5", "extensisq/bogacki.py:BS5", "extensisq/calvo.py:CFMR7osc", "extensisq/prince.py:Pr7"]}
{"id": "C113", "title": "The work for a tolerance", "statement": "Let fun be smooth in a neighbourhood of a solution y which exists on the closed interval from t0 to t_bound. For each explicit method with rational coefficients (with its preliminary error test, if it has one) and each step-size controller setting there are constants h* > 0, kappa > 0 and L such that for every max_step <= h*, every tol > 0 with a tol <= atol <= tol and 0 <= rtol <= tol, and every first step, with sigma = min(first_step, max_step, |t_bound - t0|, kappa tol^(1/(order_secondary+1))) and a minimal step of at most sigma/2: the loop over step() ends, with status 'finished', exactly on t_bound, after at most 2 |t_bound - t0| / sigma steps; the number of rejected attempts nfs is at most L n + L log(L first_step / sigma) for n steps; and if the error estimate has its generic order, the error is at most C tol^(order/(order_secondary+1)).", "quantifier": "all smooth problems, dimensions, real and complex arrays, tolerances (also arbitrarily small), first steps and controller settings", "why_tests_cant": "cost and termination as a function of the tolerance quantify over all problems and all tolerances; tests count steps in a few runs", "anchors": ["extensisq/common.py:RungeKutta._step_impl", "extensisq/common.py:RungeKutta._reassess_stepsize", "extensisq/common.py:RungeKutta._estimate_error_norm", "extensisq/common.py:norm", "extensisq/bogacki.py:BS5._estimate_error_norm_pre", "extensisq/merson.py:Me4", "extensisq/cash.py:CK5", "extensisq/bogacki.py:BS5", "extensisq/calvo.py:CFMR7osc", "extensisq/prince.py:Pr7"]}
{"id": "C114", "title": "SWAG and SSV2stab in floating point: progress and end of the interval", "statement": "With every operation on the time, step size and minimal step rounded to nearest (any rule for ties, at least 16 bits): a successful step of SWAG moves the time in the direction of integration, unless the step size has underflown to zero (only possible for |t| within the smallest normal numbers); no step of SWAG or SSV2stab goes past t_bound by more than 2u|t_bound - t|, and not at all if t_bound - t is a float; a last step (accepted at the first attempt) lands within 2u|t_bound - t| of t_bound, and if it lands short, the rest of the interval is a float and the next step, accepted at the first attempt, ends exactly on t_bound (for SWAG without an attempt if t_bound is within the minimal step). So these two solvers do not fail at the end of the interval as the other methods do (C90). Known defects: at t = 0 a SWAG step of length zero can succeed; an accepted SSV2stab step which is limited by the number of stages is not compared with the minimal step and may leave the time unchanged.", "quantifier": "all floating-point times, step sizes, intervals, sequences of rejected attempts, numbers of stages and rounding rules for ties", "why_tests_cant": "rounding cases cannot be enumerated", "anchors": ["extensisq/shampine.py:SWAG._step_impl", "extensisq/sommeijer.py:SSV2stab._step_impl"]}
{"id": "C115", "title": "Nystrom methods on smooth problems: to the end, within the tolerances, with bounded work", "statement": "Let acc(t, u, u') be smooth along a solution of u'' = acc on the closed interval from t0 to t_bound (for MR6NN: not depending on u'). For MR6NN, Fi4N and Fi5N: there is h* > 0 such that with max_step <= h*, atol bounded below, and a minimal step of at most half of min(first_step, max_step, |t_bound - t0|), the loop over step() ends with status 'finished' exactly on t_bound, without a rejected step, after at most 2 |t_bound - t0| / min(...) steps, and position and velocity are accurate to C max_step^order. If the error estimate has its generic order along the solution, then for all tolerances atol, rtol <= tol, controllers and histories the error is at most C tol^(order/(order_secondary+1)) and accepted steps are at most C tol^(1/(order_secondary+1)) long. With atol >= a tol the number of steps is at most 2 |t_bound - t0| / sigma, sigma = min(first_step, max_step, |t_bound - t0|, kappa tol^(1/(order_secondary+1))), and the number of rejected attempts is bounded by L n + L log(L first_step / sigma).", "quantifier": "all smooth second-order problems, dimensions, real and complex arrays, tolerances, controllers, starting steps, histories", "why_tests_cant": "success, accuracy and cost for every problem and every tolerance; tests sample a few", "anchors": ["extensisq/common.py:RungeKuttaNystrom", "extensisq/common.py:RungeKutta._step_impl", "extensisq/common.py:RungeKutta._reassess_stepsize", "extensisq/common.py:norm", "extensisq/mikkawy.py:MR6NN", "extensisq/fine.py:Fi4N", "extensisq/fine.py:Fi5N"]}
{"id": "C116", "title": "The constants of the stiffness test describe the stability of the methods", "statement": "For a problem with a decaying (or neutral) mode of eigenvalue lambda, h lambda in the closed left half plane and at an angle with tangent at most tanang from the negative real axis: if |h lambda| <= 0.9 stbrad, a step of size h does not amplify the mode, nor differences between two solutions in it (all explicit methods but Me4, for which 0.9 must be replaced by 0.89); if |h lambda| >= 1.05 stbrad, it does amplify the mode (for Ts5, Pr8 and Pr9 up to 1.5 stbrad). Hence a solve with max_step <= 0.9 stbrad / |lambda| never amplifies the mode, whatever steps the error control chooses; and the verdict of the stiffness test is right: 'not stiff' for a dominant root in the left half plane means that steps of the average size are stable, 'stiff' that steps longer by a factor 7/6 are not. Known defect: for Me4 a mode inside 0.9 stbrad may be amplified.", "quantifier": "all eigenvalues in the sector (a region of the complex plane), problems with such a mode (real or complex, any dimension), step sizes, states and histories", "why_tests_cant": "stability on a two-dimensional region of complex numbers; tests sample points", "anchors": ["extensisq/common.py:RungeKutta._diagnose_stiffness", "extensisq/merson.py:Me4", "extensisq/cash.py:CK5", "extensisq/bogacki.py:BS5", "extensisq/calvo.py:CFMR7osc", "extensisq/tsitouras.py:Ts5", "extensisq/prince.py:Pr7", "extensisq/prince.py:Pr8", "extensisq/prince.py:Pr9"]}
{"id": "C117", "title": "The constants of the stiffness test of the Nystrom methods describe their stability", "statement": "For u'' = acc(t,u,u') with a damped mode, i.e. a component with u'' = (r1+r2) u' - r1 r2 u, advanced with equal steps of size h (Fi4N, Fi5N and Mu5Nmb): two real negative roots with |h r| <= 0.85 stbre are damped to zero, and so is a complex pair with |Im| <= tanang |Re|, |h Re| <= 0.85 stbre and |h Im| <= 0.89 stbim (Fi4N) or 0.6 stbim (Fi5N, Mu5Nmb). Hence the verdict 'not stiff' is right for real dominant roots. stbre is sharp: at critical damping with |h r| = 1.02 stbre there are initial states for which equal steps grow without bound. Known defect: the test uses 0.9 stbim; for each of the three methods there is a damped oscillation for which the test answers 'not stiff' although steps of the average size grow without bound.", "quantifier": "all pairs of roots in the stated regions (of the complex plane), problems with such a mode (any dimension), initial states, step sizes, infinite sequences of steps", "why_tests_cant": "stability on a two-dimensional region and for infinitely many steps; tests sample points", "anchors": ["extensisq/common.py:RungeKuttaNystrom._diagnose_stiffness", "extensisq/fine.py:Fi4N", "extensisq/fine.py:Fi5N", "extensisq/murua.py:Mu5Nmb"]}
{"id": "C118", "title": "Secondary methods and error estimates of the ESDIRK methods on stiff linear problems", "statement": "For a component with y' = lam y and Re(h lam) <= 0: the secondary (embedded) solution of KC3I, KC4I and KC4Ia is at most (1 + 1e-20) times the old solution and that of Kv3I is at most the old solution (A-stability); as |h lam| grows the secondary solution tends to zero for the KC methods (L-stability, up to the rounding of the published coefficients, 1e-20) and to about -0.957 times the old solution for Kv3I (only A-stable), as documented. The error estimate that the solver tests (filtered for TRBDF2 and TRX2) is at most 1.61 (TRBDF2), 4/3 (TRX2), 0.1 (KC3I, KC4I), 0.5 (KC4Ia), 1 (Kv3I) times the old solution, whatever the step size, and tends to zero with growing |h lam| for the KC methods, but to 2/3(1+sqrt 2), 4/3 and 0.957 times the old solution for TRBDF2, TRX2 and Kv3I. This holds for the estimate tested in every successful step of every history in linear mode.", "quantifier": "all lam, step sizes and values with Re(h lam) <= 0; all linear problems, components and histories in linear mode", "why_tests_cant": "a statement about the whole left half plane and a limit; tests sample points", "anchors": ["extensisq/hosea.py:HS2I", "extensisq/hosea.py:HS2Ia", "extensisq/kennedy.py:KC3I", "extensisq/kennedy.py:KC4I", "extensisq/kennedy.py:KC4Ia", "extensisq/kvaerno.py:Kv3I", "extensisq/common.py:ESDIRK._step_impl"]}
{"id": "C119", "title": "Inexact accelerations and starting values do not ruin the accuracy of the Nystrom methods", "statement": "If u''=acc(t,u,u') has a solution between t0 and b (acc smooth along it, independent of u' for MR6NN), there are constants C, h* such that a solver (MR6NN, Fi4N, Fi5N) that is given an acceleration function within delta of acc near the solution and a starting position and velocity within delta of the exact ones stays within C (H^order + delta) of the exact position and velocity in every history of step() calls with steps of at most H (e.g. max_step = H), for H and delta up to h*: the error of the data is not amplified by the number of steps. Two runs with nearby starting values stay close whatever their tolerances and step sequences.", "quantifier": "all smooth problems (any dimension), inexact functions and starting values, solver options and histories", "why_tests_cant": "all perturbations, all histories; tests sample problems", "anchors": ["extensisq/common.py:RungeKuttaNystrom._comp_sol_err", "extensisq/common.py:RungeKuttaNystrom._rk_stage", "extensisq/mikkawy.py:MR6NN", "extensisq/fine.py:Fi4N", "extensisq/fine.py:Fi5N"]}
{"id": "C120", "title": "Restarting and changing the method during an integration keep the accuracy", "statement": "If an integration between t0 and b is done in pieces, each by a new solver started from the time and state where the previous one stopped, with any of the methods of order at least p (Me4, CK5, BS5, CFMR7osc, Pr7 for y'=f; MR6NN, Fi4N, Fi5N for u''=acc), tolerances, controllers, first steps and intermediate t_bounds, and steps of at most H, then the error is at most C (H^p + changes), with changes the sum of the changes made to the state at the restarts; C does not depend on the number of restarts or on the solvers used.", "quantifier": "all smooth problems (any dimension), any number of restarts, all solver options and histories of each piece", "why_tests_cant": "unboundedly many pieces and histories", "anchors": ["extensisq/common.py:RungeKutta.__init__", "extensisq/common.py:RungeKutta._step_impl", "extensisq/common.py:RungeKuttaNystrom.__init__", "extensisq/common.py:RungeKuttaNystrom._comp_sol_err"]}
{"id": "C121", "title": "Quantities with a prescribed constant rate are reproduced exactly by every kind of solver", "statement": "If a linear function l of the solution has l(fun(t,y)) = w for all t, y (w = 0: a conserved total such as mass, charge or momentum), then in every history l(y) = l(y0) + (t-t0) w: for the Runge-Kutta classes with exact coefficients, for SSV2stab with any numbers of stages, and for SWAG with any orders and meshes, including the extrapolated last step; the dense outputs of SSV2stab and SWAG have the same value at every time. For the Nystrom classes, l(acc) = 0 implies that l(velocity) is constant and l(position) moves uniformly, at the steps and in all dense outputs; with l(acc) = w, MR6NN, Fi4N and Fi5N follow the law of free fall exactly.", "quantifier": "all problems with such a quantity, any dimension, all histories of accepted, rejected and failed steps, all times of the dense output", "why_tests_cant": "invariant over unbounded histories and all right-hand sides", "anchors": ["extensisq/common.py:RungeKutta._step_impl", "extensisq/common.py:RungeKuttaNystrom._comp_sol_err", "extensisq/common.py:HornerDenseOutputNystrom", "extensisq/common.py:QuinticHermiteDenseOutput", "extensisq/sommeijer.py:SSV2stab._step_impl", "extensisq/shampine.py:SWAG._step_impl", "extensisq/shampine.py:SWAG._dense_output_impl"]}
{"id": "C122", "title": "Units and numbering of the components do not matter", "statement": "Solve the same problem in other units and with another numbering of the components (component i of the new problem is lam_i times component sigma(i) of the old one, lam_i nonzero, real or complex), with atol converted with the components, the same rtol, the same first_step and options. Every sequence of step() calls with a Runge-Kutta solver (also with the early error test of BS5 and CFMR7osc) has the same outcomes, and after it t, t_old, status, the step size, nfev and the number of failed steps are equal, and y is the old y in the new units. The weighted error norm itself is unchanged. More generally, for the Runge-Kutta and the Nystrom solvers, the run on the image of a problem under a linear map that keeps the error norm is the image of the run.", "quantifier": "all problems, linear maps keeping the error norm (in particular all unit conversions and renumberings), options, run lengths", "why_tests_cant": "universal over problems, conversions and histories", "anchors": ["extensisq/common.py:RungeKutta._step_impl", "extensisq/common.py:RungeKutta._comp_sol_err", "extensisq/common.py:RungeKuttaNystrom._comp_sol_err", "extensisq/common.py:calculate_scale", "extensisq/common.py:norm", "extensisq/bogacki.py:BS5", "extensisq/calvo.py:CFMR7osc"]}
{"id": "C123", "title": "Complex data type and several copies of a problem", "statement": "(a) A real problem whose function also accepts complex arrays, started from the same values with complex data type, is solved as with real data: for every sequence of step() calls with a Runge-Kutta solver (also with the early error test) the outcomes, t, t_old, status, step size, nfev and number of failed steps are equal and y is the real y with imaginary part zero. (b) Several copies of a problem stacked in one system (each component the same number of times, in any order, atol copied accordingly) are solved as a single one: same outcomes, times, step sizes and counters, and each copy has the values of the single run.", "quantifier": "all problems, data, tolerances, numbers and orders of copies, options, run lengths", "why_tests_cant": "universal over problems and histories", "anchors": ["extensisq/common.py:RungeKutta._step_impl", "extensisq/common.py:RungeKutta._comp_sol_err", "extensisq/common.py:calculate_scale", "extensisq/common.py:norm", "extensisq/bogacki.py:BS5", "extensisq/calvo.py:CFMR7osc"]}
{"id": "C124", "title": "SSV2stab: units and numbering of the components do not matter", "statement": "SSV2stab with a user function rho_jac: solve the same problem in other units and with another numbering of the components (component i of the new problem is lam_i times component sigma(i) of the old one, real or complex), atol converted with the components, rho_jac giving the same values, same rtol and options, with or without first_step. Every sequence of step() calls has the same outcomes and after it t, t_old, status, the step size, nfev, the number of rejected steps and the maximal number of stages are equal, and y is the old y in the new units. The stages commute with every linear change of variables for every number of stages. With the built-in estimator of the spectral radius the same holds when the estimator commutes with the map.", "quantifier": "all problems, conversions, numbers of stages, options, run lengths", "why_tests_cant": "universal over problems, conversions and histories", "anchors": ["extensisq/sommeijer.py:SSV2stab._step_impl", "extensisq/sommeijer.py:SSV2stab._stages", "extensisq/sommeijer.py:SSV2stab._init_step_size"]}
{"id": "C125", "title": "ESDIRK methods: units and numbering of the components do not matter", "statement": "ESDIRK methods for M y' = f(t, y), real or complex, with exact solution of the linear systems: solve the same problem in other units and with another numbering of the components (component i of the new problem is lam_i times component sigma(i) of the old one), with atol, the Jacobian function and the mass matrix converted, same rtol, first_step and options. Every sequence of step() calls has the same outcomes and after it t, t_old, status, the step size, nfev, njev, nlu and the numbers of failed steps and of failed Newton iterations are equal, and y and y' are the old ones in the new units. More generally the run on the image of a problem under an invertible linear map that keeps the norms is the image of the run, if the linear solver commutes with the map.", "quantifier": "all problems, conversions, ESDIRK tables, options, run lengths", "why_tests_cant": "universal over problems, conversions and histories", "anchors": ["extensisq/common.py:ESDIRK._step_impl", "extensisq/common.py:ESDIRK._solve_implicit_stage", "extensisq/common.py:ESDIRK._preemptive_lu_and_jac", "extensisq/common.py:ESDIRK._assess_error_and_stepsize"]}
{"id": "C126", "title": "SWAG: units and numbering of the components do not matter", "statement": "SWAG, real or complex problems: solve the same problem in other units and with another numbering of the components (component i of the new problem is lam_i times component sigma(i) of the old one), with atol converted, same rtol, first_step and options. Every sequence of step() calls has the same outcomes and after it t, t_old, status, the step size, the order, nfev and the number of failed steps are equal, y and y' are the old ones in the new units, and so is the dense output over the last step. More generally the run on the image of a problem under an invertible linear map that keeps the norms is the image of the run.", "quantifier": "all problems, conversions, options, run lengths", "why_tests_cant": "universal over problems, conversions and histories", "anchors": ["extensisq/shampine.py:SWAG._step_impl", "extensisq/shampine.py:SWAG._dense_output_impl", "extensisq/common.py:calculate_scale"]}
{"id": "C127", "title": "The unit of time does not matter", "statement": "Explicit Runge-Kutta (with or without early error test) and Nystrom solvers: write the problem with another unit of time, t' = a t with a > 0, so that the right-hand side is divided by a (Nystrom: velocities divided by a with their tolerances converted, accelerations divided by a^2), and convert t_bound, max_step and first_step. Every sequence of step() calls has the same outcomes; after it t, t_old and the step size are multiplied by a, the solution values, the status, nfev and the number of failed steps are the same. This holds for runs in which the absolute floor of the minimal step (the one quantity that a user cannot convert) is below the relative one; without max_step that is true if it holds for all times between t0 and t_bound.", "quantifier": "all problems, units, tables, options, run lengths", "why_tests_cant": "universal over problems, units and histories", "anchors": ["extensisq/common.py:RungeKutta._step_impl", "extensisq/common.py:RungeKutta._reassess_stepsize", "extensisq/common.py:RungeKuttaNystrom._rk_stage", "extensisq/bogacki.py:BS5._step_impl", "extensisq/calvo.py:CFMR7osc._step_impl"]}
{"id": "C128", "title": "SWAG: the unit of time does not matter", "statement": "SWAG: write the problem with another unit of time, t' = a t with a > 0, so that the right-hand side is divided by a, and convert t_bound, max_step and first_step. Every sequence of step() calls has the same outcomes; after it t, t_old and the step size are multiplied by a, the derivative is divided by a, the solution values, the status, the order, nfev and the number of failed steps are the same, and the dense output has the same values at corresponding times.", "quantifier": "all problems, units, options, run lengths", "why_tests_cant": "universal over problems, units and histories", "anchors": ["extensisq/shampine.py:SWAG._step_impl", "extensisq/shampine.py:SWAG._dense_output_impl"]}
{"id": "C129", "title": "ESDIRK methods: the unit of time does not matter", "statement": "ESDIRK methods for M y' = f(t, y): write the problem with another unit of time, t' = a t with a > 0, so that f and the Jacobian are divided by a, and convert t_bound, max_step and first_step. As long as the absolute floor of the minimal step is not active, every sequence of step() calls has the same outcomes; after it t, t_old and the step size are multiplied by a, the derivative is divided by a, and the solution values, the status, nfev, njev, nlu, the numbers of rejected steps and of failed Newton iterations are the same.", "quantifier": "all implicit methods of the package, problems (mass matrices, DAEs), units, options, run lengths", "why_tests_cant": "universal over problems, units and histories", "anchors": ["extensisq/common.py:ESDIRK._step_impl", "extensisq/common.py:ESDIRK._reassess_stepsize", "extensisq/common.py:ESDIRK._solve_implicit_stage", "extensisq/common.py:ESDIRK._preemptive_lu_and_jac"]}
{"id": "C130", "title": "SSV2stab: the unit of time does not matter", "statement": "SSV2stab: write the problem with another unit of time, t' = a t with a > 0, so that the right-hand side and the spectral radius are divided by a, and convert t_bound, max_step and first_step (if given). As long as no attempt uses the absolute floor of the minimal step, every sequence of step() calls, with or without first_step, has the same outcomes; after it t, t_old and the step size are multiplied by a, the derivative is divided by a, and the solution values, the status, nfev, nfesig, the number of rejected steps and the largest number of stages are the same. The stages of the code, for every number of stages, and the estimate of the spectral radius by the power method behave accordingly: the estimate is divided by a with the same number of evaluations.", "quantifier": "all problems, units, options, numbers of stages, run lengths, with a user function for the spectral radius or an estimate", "why_tests_cant": "universal over problems, units and histories", "anchors": ["extensisq/sommeijer.py:SSV2stab._step_impl", "extensisq/sommeijer.py:SSV2stab._init_step_size", "extensisq/sommeijer.py:SSV2stab._stages", "extensisq/sommeijer.py:SSV2stab._rho"]}
{"id": "C131", "title": "Nystrom methods: integrating backwards is the mirror image of integrating forwards", "statement": "Nystrom methods for u'' = f(t, u, u'): reflect the problem in time, t' = -t, so that velocities change sign and accelerations do not, and integrate from -t0 to -t_bound with the same options and first step. Every sequence of step() calls has the same outcomes; after it t and t_old have changed sign, and the step size, the positions, the status, nfev and the number of rejected steps are the same, and the velocities have changed sign. There is no proviso.", "quantifier": "all Nystrom methods, problems, options, run lengths", "why_tests_cant": "universal over problems and histories", "anchors": ["extensisq/common.py:RungeKutta._step_impl", "extensisq/common.py:RungeKutta._reassess_stepsize", "extensisq/common.py:RungeKuttaNystrom._comp_sol_err"]}
