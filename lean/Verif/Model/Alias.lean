/-
Which arrays share memory, and which are changed in place.

The other model files treat the arrays of the code as values. In Python they are objects: two names can refer to the same memory, and
an in-place change through one name changes what the other name shows. This file models the code with respect to that question
only: every statement of the constructors, steps and dense outputs that creates an array, gives it another name (or stores a view
of it), changes it in place, passes it to user code, or hands it out, with the arrays it reads. The numbers in the arrays are left
open (any value may be stored by a statement that creates or changes an array), and so are the outcomes of all tests.

Python names are `ARef`s. A view of an array is treated as the same block of memory as the array, so a write through a view is a
write to the whole block. Exceptions: the rows of the work array `W` of SSV2stab, and the extra rows of `K_extended`, which are
disjoint from the rows that make up `K`, are separate blocks. numpy arithmetic, `@`, `np.concatenate`, `.copy()`, `np.empty` and the like
create new blocks.
-/
import Mathlib.Data.Nat.Notation

namespace Extensisq

/-- Python names that refer to arrays, local or attributes of the solver. -/
inductive ARef
  | y0 | selfY | selfYOld | yLoc | yNew | selfF | selfFOld | fNew | selfK | extraK | res | tmp
  | spy | pv | sf | hyp | dy | err | v0 | vNext | wt
  | qMat | qScaled | yTest | userM | selfM | selfJ | lhs | psi | zPred | zVar | rhs | zUpd | yPred | selfYp | selfYpOld
  | yMid | dY | row0 | row1 | row2 | row3 | selfV | yLast | ypLast | wCopy
  | selfPhi | selfWt | selfPsi | psiOld | selfCoef | pPred | phiCopy | coefCopy | yOut
  deriving DecidableEq, Repr

/-- Statements. `rs` are the arrays that are read. -/
inductive AStmt
  | skip
  /-- `x` becomes a new array, computed from `rs` -/
  | alloc (x : ARef) (rs : List ARef)
  /-- `x = z`, or `x` is a view of `z` -/
  | bind (x z : ARef)
  /-- the array `x` is changed in place: `x[...] = `, `x += `, `overwrite_a=True` -/
  | write (x : ARef) (rs : List ARef)
  /-- `x` is an array supplied by the user (`y0`, a matrix `M` or `jac`) -/
  | arg (x : ARef)
  /-- `x = fun(t, z)` or `jac(t, z)`; the caller keeps what is returned, without a copy (`np.asarray` in scipy's wrapper of `fun`) -/
  | call (x z : ARef)
  /-- `x` can be seen by the user from here on and is meant to stay as it is: `solver.y`, data of a dense output, a returned value -/
  | hand (x : ARef)
  | seq (p q : AStmt)
  | choice (p q : AStmt)
  | loop (p : AStmt)
  /-- `p`, or any first part of it: a method that can be left by `return` or by an exception of user code, after which the solver
  object still exists and may be used -/
  | attempt (p : AStmt)

/-- Statements one after the other. -/
def AStmt.block : List AStmt → AStmt
  | [] => .skip
  | p :: ps => .seq p (AStmt.block ps)

/-- What user code does with arrays. -/
inductive UserMode
  /-- every array returned is new, and no reference to it is kept -/
  | fresh
  /-- references to arguments and results may be kept, and any array seen before may be returned, for example the argument -/
  | keeps
  /-- results are returned in arrays of the user's own that are filled again in later calls -/
  | reuses
  deriving DecidableEq

/-- Memory: what each name refers to; the contents of each block; the value that each name would have if arrays were values (set when
the name is bound or when the array is changed through this name); the blocks of which user code has seen a reference; the user's
own blocks for results; the blocks that have been handed out or supplied by the user, with the contents they had then; the number of
blocks in use; whether every array read so far had the contents it would have if arrays were values. -/
structure AState (V : Type) where
  env : ARef → Option ℕ
  heap : ℕ → V
  val : ARef → V
  known : ℕ → Prop
  own : ℕ → Bool
  given : ℕ → Option V
  next : ℕ
  ok : Prop

variable {V : Type}

/-- Nothing exists yet. -/
def AState.start (h : ℕ → V) : AState V :=
  ⟨fun _ => none, h, fun _ => h 0, fun _ => False, fun _ => false, fun _ => none, 0, True⟩

/-- `x` refers to block `b` and has value `v`. -/
def AState.setEnv (s : AState V) (x : ARef) (b : Option ℕ) (v : V) : AState V :=
  { s with env := fun z => if z = x then b else s.env z, val := fun z => if z = x then v else s.val z }

/-- Block `b` gets the contents `v`. -/
def AState.setHeap (s : AState V) (b : ℕ) (v : V) : AState V :=
  { s with heap := fun c => if c = b then v else s.heap c }

/-- A new block with contents `v`, named `x`. -/
def AState.new (s : AState V) (x : ARef) (v : V) : AState V :=
  { (s.setEnv x (some s.next) v).setHeap s.next v with next := s.next + 1 }

/-- The array `x` is read. -/
def AState.use (s : AState V) (x : ARef) : AState V :=
  { s with ok := s.ok ∧ ∀ b, s.env x = some b → s.heap b = s.val x }

/-- User code sees the array `x`. -/
def AState.see (s : AState V) (x : ARef) : AState V :=
  { s with known := fun b => s.known b ∨ s.env x = some b }

/-- Block `b` is handed out. The contents at the first time count. Blocks that the user fills again are the user's business. -/
def AState.giveBlock (s : AState V) (b : ℕ) : AState V :=
  { s with known := fun c => s.known c ∨ c = b,
           given := fun c => if c = b ∧ (s.given c).isNone ∧ s.own c = false then some (s.heap b) else s.given c }

/-- The user fills the own arrays with other numbers. -/
def AState.refill (s : AState V) (h : ℕ → V) : AState V :=
  { s with heap := fun c => if s.own c = true then h c else s.heap c }

/-- Block `b` is the user's own, for results. -/
def AState.makeOwn (s : AState V) (b : ℕ) : AState V :=
  { s with own := fun c => if c = b then true else s.own c }

/-- Executions. `Exec mode p s s' done`: from memory `s`, statement `p` can lead to memory `s'`; it has been completed if `done`,
otherwise it has been left somewhere on the way. -/
inductive Exec (mode : UserMode) : AStmt → AState V → AState V → Bool → Prop
  | stop (p s) : Exec mode p s s false
  | skip (s) : Exec mode .skip s s true
  | alloc (x rs s v) : Exec mode (.alloc x rs) s ((rs.foldl AState.use s).new x v) true
  | bind (x z s) : Exec mode (.bind x z) s (s.setEnv x (s.env z) (s.val z)) true
  | write (x rs s b v) : s.env x = some b →
      Exec mode (.write x rs) s (((rs.foldl AState.use s).setHeap b v).setEnv x (some b) v) true
  | arg (x s v) : Exec mode (.arg x) s ((s.new x v).giveBlock s.next) true
  | callFresh (x z s v) : mode = .fresh → Exec mode (.call x z) s (((s.use z).see z).new x v) true
  | callNew (x z s v) : mode = .keeps → Exec mode (.call x z) s ((((s.use z).see z).new x v).giveBlock s.next) true
  | callKnown (x z s b) : mode = .keeps → ((s.use z).see z).known b →
      Exec mode (.call x z) s (((s.use z).see z).setEnv x (some b) (s.heap b)) true
  | callOwn (x z s v h) : mode = .reuses → Exec mode (.call x z) s (((((s.use z).see z).refill h).new x v).makeOwn s.next) true
  | callAgain (x z s b h) : mode = .reuses → s.own b = true →
      Exec mode (.call x z) s ((((s.use z).see z).refill h).setEnv x (some b) (h b)) true
  | hand (x s b) : s.env x = some b → Exec mode (.hand x) s ((s.use x).giveBlock b) true
  | seqStop (p q s s') : Exec mode p s s' false → Exec mode (.seq p q) s s' false
  | seq (p q s s' s'' d) : Exec mode p s s' true → Exec mode q s' s'' d → Exec mode (.seq p q) s s'' d
  | left (p q s s' d) : Exec mode p s s' d → Exec mode (.choice p q) s s' d
  | right (p q s s' d) : Exec mode q s s' d → Exec mode (.choice p q) s s' d
  | loopEnd (p s) : Exec mode (.loop p) s s true
  | loopStop (p s s') : Exec mode p s s' false → Exec mode (.loop p) s s' false
  | loopNext (p s s' s'' d) : Exec mode p s s' true → Exec mode (.loop p) s' s'' d → Exec mode (.loop p) s s'' d
  | attempt (p s s' d) : Exec mode p s s' d → Exec mode (.attempt p) s s' true

open AStmt ARef

/-! ### The parts shared by the solvers -/

/-- scipy's `OdeSolver.__init__`: `y0` is the user's array; `self.y` is that array, or a converted copy
(`np.asarray(y0)`, `y0.astype(dtype, copy=False)`). The state of a new solver can be read (`solver.y`; `solve_ivp` stores it as the
first output point). -/
def alBase : AStmt := block [arg y0, choice (bind selfY y0) (alloc selfY [y0]), hand selfY]

/-- `h_start(df, a, b, y, yprime, …)` (common.py:590-592, 621-629, 653-716): the work arrays are new, all writes go to them; `y` and
`yprime` (here `slope`) are only read. The loop stands for the two or three iterations; `df(a, pv)` sees the work array `pv`. -/
def alHStart (state slope : ARef) : AStmt := block
  [alloc spy [], alloc pv [], choice (call sf state) (alloc sf [slope]), alloc hyp [sf, slope],
   choice skip (block
    [write spy [slope], write hyp [slope],
     loop (block [write pv [state, hyp], call res pv, write hyp [res], write pv [hyp, sf, slope],
       choice skip (block [choice (alloc dy [state]) (alloc dy [pv]), write dy [dy], write spy [spy, hyp], write hyp [spy, dy],
         choice skip (write hyp [hyp, spy, dy])])])])]

/-- `stiff_a` with `stiff_d`, called from `_diagnose_stiffness` (common.py:421-440, 915-926, 955-984, 999-1090, 1194-1204): `v0` is the
error vector, which was just computed; in the complex case it is expanded into a new array; then it is normalised in place.
`stiff_d` evaluates `f(x, y + …)` and returns a new vector. -/
def alStiff : AStmt := block
  [alloc wt [selfY, selfYOld], alloc err [selfK], bind v0 err, choice skip (alloc v0 [v0]), choice skip (write v0 []),
   write v0 [v0, wt],
   loop (block [alloc tmp [selfY, v0, wt], call res tmp, alloc vNext [res, selfF], choice skip (alloc v0 [vNext])])]

/-- Evaluation of a dense output (common.py:775-790, 809-821, 1500-1523, 1551-1577; hosea.py:39-43; shampine.py:525-612): the result
is a new array, filled in place and returned. (That the stored data still are what they were is the first part of C100.) -/
def alEval : AStmt := block [alloc yOut [], loop (write yOut [yOut]), hand yOut]

/-- A solver's life: construction, then any sequence of steps, dense outputs and evaluations of those. Each of them may be left by a
`return` or by an exception at any point. -/
def alLife (init step dense : AStmt) : AStmt :=
  .seq init (.loop (.choice (.attempt step) (.choice (.attempt dense) (.attempt alEval))))

/-! ### Explicit Runge-Kutta methods -/

/-- `RungeKutta.__init__` (common.py:191-220): `self.f` is what `fun` returned. -/
def alRKInit : AStmt := block
  [alBase, call selfF selfY, choice skip (alHStart selfY selfF), alloc selfK []]

/-- `_rk_stage` (common.py:353-356). -/
def alStage : AStmt := block [alloc tmp [selfY, selfK], call res tmp, write selfK [res]]

/-- The stages of an attempt: `self.K[0] = self.f`, then `_rk_stage` (common.py:240-242). -/
def alStages : AStmt := block [write selfK [selfF], loop alStage]

/-- `_comp_sol_err` (common.py:339-351): `y_new` is a new array; with FSAL the last row of `K` is filled; the error is computed. -/
def alSolErr : AStmt := block
  [alloc yNew [yLoc, selfK], choice skip (block [call res yNew, write selfK [res]]), alloc err [selfK, yLoc, yNew]]

/-- The end of an accepted step (common.py:289-307), in the order of the code; `self.f` is a copy of the last row of `K`. The
stiffness test is optional. -/
def alRKAccept : AStmt := block
  [choice skip (block [call res yNew, write selfK [res]]),
   bind selfYOld yLoc, bind selfFOld selfF, alloc selfF [selfK], bind selfY yNew, hand selfY, choice skip alStiff]

/-- `RungeKutta._step_impl` (common.py:222-311). The inner loop is the loop over attempts. -/
def alRKStep : AStmt := block [bind yLoc selfY, loop (.seq alStages alSolErr), alRKAccept]

/-- A `HornerDenseOutput` keeps `y_old` (here `yRef`) and the new array `Q * h` (common.py:363-365, 769-773). -/
def alHorner (yRef : ARef) (ks : List ARef) : AStmt :=
  block [alloc qMat ks, alloc qScaled [qMat], hand yRef, hand qScaled]

/-- A `CubicDenseOutput` keeps the four arrays it gets (common.py:368-370, 798-805). -/
def alCubic : AStmt := block [hand selfYOld, hand selfY, hand selfFOld, hand selfF]

/-- `RungeKutta._dense_output_impl` (common.py:358-370). -/
def alRKDense : AStmt := choice (alHorner selfYOld [selfK]) alCubic

/-- All methods that use the base class as it is: `Me4`, `CK5`, `Ts5`, `Pr7`, `Pr8`, `Pr9`. -/
def alRK : AStmt := alLife alRKInit alRKStep alRKDense

/-- `BS5._step_impl` (bogacki.py:238-336): attempts may end after the preliminary error estimate; `self.f` is a copy. -/
def alBS5Step : AStmt := block
  [bind yLoc selfY,
   loop (block [alStages, alloc tmp [yLoc, selfK], alloc err [selfK, tmp], choice skip (block [alStage, alSolErr])]),
   bind selfYOld yLoc, alloc selfF [selfK], bind selfY yNew, hand selfY, choice skip alStiff]

/-- `BS5` (bogacki.py:217-236 constructor; 346-393 dense output: extra stages in the extra rows of `K_extended`, `Q` a new array filled
in place). -/
def alBS5 : AStmt := alLife
  (block [alRKInit, choice (block [alloc selfK [], alloc extraK []]) skip]) alBS5Step
  (choice (alHorner selfYOld [selfK])
    (block [loop (block [alloc tmp [selfYOld, selfK, extraK], call res tmp, write extraK [res]]),
      choice (alHorner selfYOld [selfK, extraK])
        (block [alloc qMat [], loop (block [alloc tmp [selfK, extraK], write qMat [tmp]]), alloc qScaled [qMat], hand selfY, hand qScaled])]))

/-- `CFMR7osc._step_impl` (calvo.py:152-253). -/
def alCFMR7oscStep : AStmt := block
  [bind yLoc selfY,
   loop (block [alStages, alloc tmp [yLoc, selfK], alloc err [selfK, tmp], choice skip (block [alStage, alSolErr])]),
   call res yNew, write selfK [res],
   bind selfYOld yLoc, alloc selfF [selfK], bind selfY yNew, hand selfY, choice skip alStiff]

/-- `CFMR7osc`, dense output of the base class with an interpolant. -/
def alCFMR7osc : AStmt := alLife alRKInit alCFMR7oscStep (alHorner selfYOld [selfK])

/-- `CKdisc._step_impl` (cash.py:253-394): `self.f` is the array returned by `fun`, not a copy. -/
def alCKdiscStep : AStmt := block
  [bind yLoc selfY, loop (block [alStages, alloc yNew [selfK, selfY], alloc err [selfK], alloc wt [selfY, yNew]]),
   call fNew yNew, write selfK [fNew], bind selfYOld yLoc, bind selfF fNew, bind selfY yNew, hand selfY]

/-- `CKdisc._dense_output_impl` (cash.py:408-416): after a fallback step the `CubicDenseOutput` gets `self.K[0, :]` and `self.K[-1, :]`,
which are views of `K`. -/
def alCKdiscDense : AStmt := choice (alHorner selfYOld [selfK])
  (block [hand selfYOld, hand selfY, hand selfK])

/-- `CKdisc`. -/
def alCKdisc : AStmt := alLife alRKInit alCKdiscStep alCKdiscDense

/-- `CKdisc` as long as no dense output is asked for after a fallback step. -/
def alCKdiscMain : AStmt := alLife alRKInit alCKdiscStep (alHorner selfYOld [selfK])

/-- `CKdisc` with copies of the two rows (not the code as it is). -/
def alCKdiscFixed : AStmt := alLife alRKInit alCKdiscStep
  (choice (alHorner selfYOld [selfK]) (block [alloc tmp [selfK], hand selfYOld, hand selfY, hand tmp]))

/-! ### Nyström methods -/

/-- `RungeKuttaNystrom.__init__` (common.py:1241-1279): the tests of `fun` use modified copies of `y`; `self.f` becomes a view of what
`fun` returned; `K` is new. -/
def alNyInit : AStmt := block
  [alRKInit,
   choice skip (block [alloc yTest [selfY], write yTest [yTest], call res yTest, alloc tmp [res, yTest]]),
   choice skip (block [alloc yTest [selfY], write yTest [yTest], call res yTest, alloc tmp [res, selfF]]),
   alloc selfK [], bind selfF selfF]

/-- A `HornerDenseOutputNystrom` keeps `y_old` and two new arrays (common.py:1314-1318, 1492-1498). -/
def alHornerNy (ks : List ARef) : AStmt := .seq (alHorner selfYOld ks) (alHorner selfYOld ks)

/-- `RungeKuttaNystrom._dense_output_impl` (common.py:1312-1321); `QuinticHermiteDenseOutput` keeps views of the four arrays it gets
(1540-1549). -/
def alNyDense : AStmt := choice (alHornerNy [selfK]) alCubic

/-- `MR6NN`, `Fi4N`. -/
def alNy : AStmt := alLife alNyInit alRKStep alNyDense

/-- Extra stages for an interpolant, `K[s] = self.fun(...)` in the extended array (fine.py:401-407; murua.py:236-242). -/
def alNyExtra : AStmt := loop (block [alloc tmp [selfYOld, selfK, extraK], call res tmp, write extraK [res]])

/-- `Mu5Nmb` (murua.py:211-246) and `Fi5N` with `interpolant` 0, 2 or 3 (fine.py:364-414). -/
def alNyExt : AStmt := alLife
  (block [alNyInit, choice skip (block [alloc selfK [], alloc extraK []])]) alRKStep
  (choice alCubic (block [alNyExtra, alHornerNy [selfK, extraK]]))

/-- `Fi5N` with `interpolant=1`: `dense_output` changes `self.y` in place (fine.py:409-413). -/
def alFi5N1 : AStmt := alLife
  (block [alNyInit, alloc selfK [], alloc extraK []]) alRKStep
  (block [alNyExtra, alloc tmp [selfYOld, selfK, extraK], write selfY [selfYOld, tmp], alHornerNy [selfK, extraK]])

/-! ### ESDIRK methods -/

/-- `_validate_jac` (common.py:1706-1754) at the start: a callable, a matrix of the user (perhaps converted), or differences
(`num_jac` of scipy evaluates `fun` at arrays of its own). -/
def alJacInit : AStmt := choice (block [call selfJ selfY, choice skip (alloc selfJ [selfJ])])
  (choice (block [arg selfJ, choice skip (alloc selfJ [selfJ])])
    (block [call res selfY, loop (block [alloc tmp [selfY], call res tmp]), alloc selfJ [selfY]]))

/-- `ESDIRK.__init__` (common.py:1922-2006) with `_handle_M` (1778-1821) and `_consistent_ICs` (1823-1920). The matrix `M` may be the
user's; `lu_factor(M_mat)` and `lu_solve(LU_M, self.f)` have no `overwrite` option, their results are new. For a DAE `self.y` may become a
new array, `root` of scipy evaluates `fun` and `jac` at arrays of its own. `self.f` keeps the first evaluation. -/
def alEsdirkInit : AStmt := block
  [alBase, call selfF selfY, alloc selfK [], alJacInit,
   choice (alloc selfM []) (block [arg userM, bind selfM userM, choice skip (alloc selfM [userM])]),
   choice
     (block [alloc lhs [selfM], alloc selfYp [lhs, selfF], choice skip (alHStart selfY selfYp)])
     (block [
       alloc tmp [selfJ, selfF],
       choice (bind fNew selfF) (block [alloc zVar [selfY], loop (block [alloc tmp [zVar], call res tmp, alloc zVar [res]]),
         alloc selfY [zVar], hand selfY, call fNew selfY, call selfJ selfY]),
       alHStart selfY fNew, alloc selfYp [fNew, selfJ], choice skip (block [alloc zVar [selfY], alloc zUpd [fNew], alHStart zVar zUpd])])]

/-- The LU decomposition overwrites its argument (`lu_factor(A, overwrite_a=True)`, common.py:1768-1770), which is the new matrix
`M_mat - h * d * J` (2034-2044). -/
def alLU : AStmt := block [alloc lhs [selfM, selfJ], write lhs [lhs]]

/-- `_solve_implicit_stage` (common.py:2183-2232): `z` is a copy of the prediction, changed in place; `solve_lu` overwrites the new
vector `Sc @ z_residual` and may return it (1772-1774). -/
def alNewton : AStmt := block
  [alloc psi [yLoc, selfK], alloc zPred [selfK], alloc zVar [zPred],
   loop (block [alloc yPred [psi, zVar], call res yPred, alloc rhs [res, selfM, zVar], write rhs [rhs, lhs], bind zUpd rhs,
     write zVar [zVar, zUpd], alloc err [zUpd, yLoc, yPred]])]

/-- `self.jac(t, y)` (common.py:1716-1738): the result of the user's function, perhaps converted, or differences. -/
def alJac : AStmt := choice (block [call selfJ yLoc, choice skip (alloc selfJ [selfJ])])
  (block [call res yLoc, loop (block [alloc tmp [yLoc], call res tmp]), alloc selfJ [yLoc]])

/-- `ESDIRK._step_impl` (common.py:2008-2108) with `_preemptive_lu_and_jac` (2110-2127). -/
def alEsdirkStep : AStmt := block
  [bind yLoc selfY, write selfK [selfYp], choice skip alJac,
   loop (block [choice skip alLU, loop (block [alNewton, choice skip (write selfK [zVar])]),
     choice (choice skip alJac)
       (block [alloc yNew [psi, zVar], alloc err [selfK, yLoc, yNew],
         choice skip (block [alloc rhs [err], write rhs [rhs, lhs], bind zUpd rhs, alloc err [zUpd, selfM]])])]),
   alloc selfYOld [yLoc], alloc selfYpOld [selfF], alloc selfYp [selfK], bind selfY yNew, hand selfY]

/-- `ESDIRK._dense_output_impl` with an interpolant (common.py:2234-2241). -/
def alEsdirkHorner : AStmt := alHorner selfYOld [selfK]

/-- `HS._dense_output_impl` (hosea.py:15-26): the spline gets new arrays. -/
def alHSDense : AStmt := block [alloc yMid [selfYOld, selfK], alloc qMat [selfYOld, yMid, selfY], alloc dY [selfK], hand qMat, hand dY]

/-- All ESDIRK methods. (The cubic interpolant of the base class, common.py:2243-2245, is not reached by any of them.) -/
def alEsdirk : AStmt := alLife alEsdirkInit alEsdirkStep (choice alEsdirkHorner alHSDense)

/-! ### SSV2stab -/

/-- `SSV2stab.__init__` (sommeijer.py:93-145): the values of `y` and `fun` are copied into the work array `W`. -/
def alChebInit : AStmt := block
  [alBase, choice skip (call res selfY), alloc row0 [], alloc row1 [], alloc row2 [], alloc row3 [],
   write row0 [selfY], call res selfY, write row1 [res]]

/-- `_rho` (sommeijer.py:331-398): `self.V` starts as a copy of `fn` (made once); all other writes go to rows of `W` (`v`, `fv` are rows 2, 3). -/
def alChebRho : AStmt := block
  [choice skip (alloc selfV [row1]), write row2 [selfV], write row2 [row0, row2],
   loop (block [call res row2, write row3 [res], alloc tmp [row3, row1],
     choice skip (write selfV [row2, row0]), choice skip (write row2 [row0, row3, row1])])]

/-- `_stages` (sommeijer.py:273-329): writes to `y` and to rows of `W`. -/
def alChebStages : AStmt := block
  [write row3 [row0], write row2 [row0, row1],
   loop (block [call res row2, write yLoc [res], write yLoc [row2, row3, row0, yLoc, row1],
     choice skip (block [write row3 [row2], write row2 [yLoc]])])]

/-- `SSV2stab._step_impl` (sommeijer.py:162-271) with `_init_step_size` (147-160): `y` is a copy; `yn, fn, vtemp1, vtemp2`
(rows 0 to 3) are the rows of `W`. -/
def alChebStep : AStmt := block
  [alloc yLoc [selfY],
   loop (block [choice skip (choice (call res row0) alChebRho),
     choice skip (block [write row2 [row0, row1], call res row2, write row3 [res], alloc tmp [row3, row1, row0]]),
     alChebStages, call res yLoc, write row2 [res], alloc err [row0, yLoc, row1, row2]]),
   alloc yLast [row0], alloc ypLast [row1], write row0 [yLoc], write row1 [row2], write row2 [yLast], write row3 [ypLast],
   bind selfY yLoc, hand selfY]

/-- `SSV2stab._dense_output_impl` (sommeijer.py:400-406): the four rows are copied. -/
def alChebDense : AStmt := block [alloc wCopy [row0, row1, row2, row3], hand wCopy]

/-- `SSV2stab`. -/
def alCheb : AStmt := alLife alChebInit alChebStep alChebDense

/-! ### SWAG -/

/-- `SWAG.__init__` (shampine.py:99-178): `self.yp` is the array returned by `fun`. `selfCoef` stands for `alpha`, `beta`, `sig`, `v`, `w`,
`g`, `gi`, `iv`. -/
def alSwagInit : AStmt := block
  [alBase, call selfYp selfY, choice skip (alHStart selfY selfYp), alloc selfPhi [], alloc selfPsi [], alloc selfCoef [],
   alloc selfWt [selfY, selfYp], write selfPhi [selfYp], write selfCoef []]

/-- The coefficients (shampine.py:248-317): `psi_old` is a copy of a part of `psi`, which is then changed. -/
def alSwagCoef : AStmt := block
  [alloc psiOld [selfPsi], write selfPsi [], write selfPsi [psiOld], write selfCoef [selfPsi, selfCoef], write selfCoef [selfPsi, psiOld]]

/-- `SWAG._step_impl` (shampine.py:180-480): `y` is a copy; `yp[:] = self.fun(...)` (336, 412) changes `self.yp` in place. -/
def alSwagStep : AStmt := block
  [alloc yLoc [selfY], bind selfYOld selfY,
   choice (block [write yLoc [yLoc, selfYp], bind selfY yLoc, hand selfY])
    (block [loop (block [choice skip alSwagCoef, write selfPhi [selfPhi, selfCoef], alloc pPred [selfPhi, selfCoef, yLoc],
        write selfPhi [selfPhi], call res pPred, write selfYp [res], write selfWt [pPred, yLoc], alloc err [selfYp, selfPhi, selfWt],
        choice skip (block [write selfPhi [selfPhi, selfCoef], write selfPsi [selfPsi]])]),
      write yLoc [selfYp, selfPhi, pPred], call res yLoc, write selfYp [res], write selfPhi [selfYp, selfPhi], bind selfY yLoc, hand selfY])]

/-- `SWAG._dense_output_impl` (shampine.py:482-495), `SwagDenseOutput.__init__` (499-523) and `LinearDenseOutput.__init__` (596-600):
`phi` and `alpha` are copied, `y` and `y_old` are kept. -/
def alSwagDense : AStmt := choice
  (block [alloc phiCopy [selfPhi], alloc coefCopy [selfCoef], hand selfY, hand selfYOld, hand phiCopy, hand coefCopy])
  (block [alloc tmp [selfY, selfYOld], hand selfYOld, hand tmp])

/-- `SWAG`. -/
def alSwag : AStmt := alLife alSwagInit alSwagStep alSwagDense

/-- `SWAG` with `self.yp = self.fun(...).copy()` (not the code as it is). -/
def alSwagFixed : AStmt := alLife
  (block [alBase, call res selfY, alloc selfYp [res], choice skip (alHStart selfY selfYp), alloc selfPhi [], alloc selfPsi [],
    alloc selfCoef [], alloc selfWt [selfY, selfYp], write selfPhi [selfYp], write selfCoef []]) alSwagStep alSwagDense

end Extensisq
