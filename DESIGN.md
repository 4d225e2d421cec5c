# Formal model of ensmallen: design

The source of truth is `/repo/include/ensmallen_bits` at the pinned commit. The
model lives in `lean/Verif/`, one directory or file per area:

* `*/Model.lean` (or the model section of a single-file area): definitions, each
  citing the C++ file and lines it models and stating simplifications;
* `*/Lemmas.lean`: helper lemmas;
* `*/Props.lean`: small independent specifications, the property theorems
  (named `Cnn_...`), and `example`s showing that the hypotheses are met by a
  concrete, non-trivial case.

## Modelling conventions

1. **User code is a parameter.** Objective functions, callbacks, policies,
   random numbers, inner optimizers and clocks are arbitrary functions. Where
   user code may be stateful, all of its state is one opaque world `W` that each
   call may change, so theorems hold for non-deterministic, stateful code.
2. **Arithmetic.** Control-flow theorems are stated for arbitrary element
   operations (addition, comparison, NaN tests are parameters), hence they hold
   for IEEE doubles. Theorems about best-so-far bookkeeping assume only that `<`
   is a strict partial order (irreflexive, transitive); IEEE `<` with NaN is one.
   Theorems which need algebra (clipping, convexity, quasi-Newton identities,
   gradients) are about exact real arithmetic (an ordered field, `ℝ`, or a real
   inner product space); rounding is outside the model.
3. **Sizes.** `size_t` is `Nat`; wrap-around is modelled only where the code
   relies on it or suffers from it (noted in the definition). Statements about
   limits (C250, C251, C252, C255, C259) let `maxIterations` range over all of `Nat`:
   an idealisation, as a `size_t` ends at 2^64.
4. **Undefined behaviour / exceptions** are explicit outcomes
   (`Except`/`Option`/inductive results), never silently totalised.
5. **Loops** are structural recursion over the work list, or fuel-bounded with
   a distinct `outOfFuel` outcome and a separate termination theorem.
6. **False properties.** If the code violates the property, the negation is
   proved with a concrete witness (`..._refuted`) and the strongest true part is
   proved with suffix `_partial`.

## Trusted base

* The Lean 4.33.0 kernel and Mathlib as installed.
* Axioms: at most `propext`, `Classical.choice`, `Quot.sound` for each theorem
  (`lean/Verif/Axioms.lean` prints them during the build).
* The faithfulness of the definitions to the cited C++ lines (reviewed by hand;
  not mechanically extracted).
* Not modelled: template/SFINAE machinery, floating-point rounding, Armadillo
  internals (BLAS/LAPACK results are taken to be the exact mathematical
  operation), printing/warnings, wall-clock time, OpenMP runtime (only the set
  of interleavings of atomic updates is modelled).

## Plan per property

| id | what is modelled | how proved |
|----|------------------|-----------|
| C01 | callback list dispatch as recursion over handlers with state | induction over the list |
| C02 | Evaluate-then-Gradient dispatch with a trace | induction |
| C03 | `EndEpoch` state machine | invariant relating `steps` to the loss history |
| C04 | `Evaluate` state machine | invariant over histories, strict partial order |
| C05 | same | refutation + partial (first run / strictly better second run) |
| C06 | norm clipping in a normed space | direct |
| C07 | element-wise clamp | order lemmas |
| C08 | SGD main loop with trace | loop invariant on the trace |
| C09 | same | potential function `actualMax - i` |
| C10 | final exactObjective loop | induction on the batch loop |
| C11 | trace protocol | invariant |
| C12 | returned accumulator | refutation + partial |
| C13 | optimizer object with policy holders across calls | refutation + partial |
| C14 | GD loop | invariant |
| C15 | same | refutation + partial |
| C16 | GD recursion in inner product spaces | descent lemma from smoothness, telescoping |
| C17 | recursive enumeration | induction on dimensions |
| C18 | CD loop and descent policies | invariant, modular arithmetic |
| C19 | SA loop | invariant |
| C20-C22 | DE loop, oracle random draws | invariant; witnesses for C21, C22 |
| C23-C25 | PSO loops, LBest, DefaultInit | invariants; witnesses |
| C26 | scalar boundary transform | real arithmetic case analysis |
| C27 | CMA-ES outer loop with candidate generation as a parameter | invariant |
| C28 | restart loop | induction |
| C29-C30 | Dominates and FastNonDominatedSort | order lemmas; worklist invariant |
| C31-C35 | NSGA2/AGEMOEA operators and loops | invariants; witnesses |
| C36-C38 | MOEA/D loop pieces, Das-Dennis recursion | induction |
| C39-C40 | two-loop recursion, ring buffer | induction over pairs, modular arithmetic |
| C41-C42 | thread shares; interleavings of atomic adds | arithmetic; commutativity over permutations |
| C43 | SVRG full gradient and direction | finite sums |
| C44 | IQN aggregates | invariant; witness for unequal batches |
| C45, C47, C118 | Frank-Wolfe loop with user code as parameters; classic and line-search updates | loop invariants: convexity, descent lemma, first-order convexity; witnesses |
| C46, C119, C120 | Lp-ball and group oracles over the reals; `arma::norm`/`normalise` truncate their exponent (outside /repo) | Hölder; scan invariant; witnesses |
| C48, C49 | both projections over an ordered field, division by zero and out-of-bounds explicit | sorted prefix sums, soft-threshold subgradient; exchange argument; witness |
| C50, C51, C121-C126 | augmented Lagrangian: objective and gradient of the inner problem, outer loop with the inner solver as a parameter | derivatives; loop invariant; concrete runs for the negations (C122-C124, C126), invariants of the loop for what remains true of them |
| C52-C53 | symmetric vectorisation | index arithmetic, finite sums |
| C54, C55, C127 | heap model of `Any` and of programs that construct, run, copy and destroy SGD objects | invariant over programs; witnesses; for C127 also the exact number of objects lost |
| C56, C128 | `function/*` adapters: declaration forms, overload resolution, synthesised method bodies (Adapter) | case analysis over all declaration forms; two refutations |
| C57-C60, C129-C131, C134-C137 | all update policies, coordinate-wise over the reals (Update/Model) | induction over gradient sequences; Cauchy-Schwarz invariant for Adam; refutations by witness |
| C132, C133, C138 | WNGrad in a normed space, SWATS with inner products, parent-held state (Update/Norm) | induction; refutations by witness |
| C61, C140, C141 | Lookahead loop with the inner optimizer as a parameter | inductive description of the trace; witnesses |
| C62, C139, C142 | SPSA loop over the reals | inductive description of the trace; finite sums over sign vectors; witnesses |
| C63, C143-C148 | BigBatchSGD loop with abstract arithmetic; both step size policies and the variance over the reals | loop invariants, descent lemma; witnesses |
| C149, C150 | whole SGD runs on an object; the epoch tests with arbitrary user code | simulation of the recursion; loop invariant over the trace |
| C151 | whole gradient descent runs | simulation |
| C152 | `TimerStop` over sequences of notifications | induction |
| C157 | the DE, SA, PSO, CNE and CMA-ES runs with stop requests in the trace | loop invariant: no request yet, or what may still follow |
| C158, C159 | SA loop counters; the proposal as a function of a uniform draw | fold over the trace as invariant; measure of an interval; monotonicity of exp for the target of move control |
| C160 | PSO run against a textbook swarm | simulation |
| C161 | CNE run with all notifications | invariant on the shape of the trace |
| C162-C164 | L-BFGS run with a logging world, its line search, and a memory that keeps every pair | erasure of the log; loop invariants |
| C165, C166 | ParallelSGD and IQN runs against an explicit sequence of states | simulation; case analysis of the exits |
| C167 | CD: periodic evaluations and stopping rule | invariant over the values in the trace |
| C168-C171 | Eve and SPALeRASGD runs (one model of both loops, `Verif/Epoch/Model.lean`) | invariants over the trace, adjacency of events; C171 witness + partial |
| C172, C173 | Step of Eve over ℝ | invariants of the moments; C173 witness + partial |
| C174, C175 | Step of SPALeRASGD over ℝ, empty `previousIterate` as `none` | invariants of the policy object; C174 witness + partial |
| C176 | SVRG and Katyusha runs on pure objectives (`Verif/Vr/Textbook.lean`) | simulation of independently defined sequences, batch by batch |
| C177 | update policies, one coordinate, over ℝ (`Verif/Update/ClosedForm.lean`) | unrolled recurrences: sums, exponential averages, maxima |
| C178 | SPSA gains (`Verif/Spsa/Gains.lean`) | position of a move in the trace; series comparison |
| C179 | BigBatchSGD runs (`Verif/BigBatch/Run.lean`) | law of every event in terms of a view folded over the preceding events; loop invariant |
| C180 | as C179 | chain of tests over the sums of finished epochs, kept by the loop invariant |
| C181 | as C179 | partial + witness: a stop request at the end of an epoch |
| C182 | CMA-ES (`Verif/Cmaes/Rule.lean`) | counter folded over the best objectives of the generations, kept by the loop; arithmetic of the batches |
| C183 | `Sdp/Lrsdp.lean`: closed forms of the loops, derivative along lines | proved |
| C184 | same; non-symmetric witness | refuted (partial: C183) |
| C185 | `Sdp/LrsdpRun.lean`: AugLag loop on the cached function vs on the program, invariant "cache = product of the coordinates"; witness with the L-BFGS model | partial + refuted |
| C186 | `BigBatch/Values.lean`: Welford recurrence in an inner product space | partial (all but the first gradient) + refuted |
| C187 | `Sdp/PrimalDual.lean`: whole solver; `svec` vectors are the symmetric matrices they stand for; Cholesky, inverse, eigenvalues, Lyapunov, solve are parameters, specified by `Exact` | elimination carried out in matrices |
| C188 | same, `Alpha` with `1/0`, negative zero | congruence with the Cholesky factor, Rayleigh quotients; partial + refuted |
| C189 | `Sdp/PrimalDualRun.lean`: invariant of the main loop | proved from C187, C188 |
| C190 | `Sdp/PrimalDualCert.lean` | weak duality, Cauchy–Schwarz |
| C191, C192 | `Sdp/PrimalDualTrace.lean`: event trace, exits | run shape (partial) + refuted |
| C193, C194, C195 | `Moo/Survival.lean`: `SurvivalScoreAssignment` and its helpers; power, logarithm, `solve` are parameters (`Ops`) with the few laws needed (`Sane`, `Solves`) | invariants of the greedy selection; arg-min/arg-max folds (C194 refuted for small first fronts) |
| C196 | `exponent` with the real operations | algebra of `log` and `rpow` |
| C197, C198 | `survival` on concrete populations with rational operations | refuted; C198 partial by invariance of the shifted objectives |
| C199 | `Moo/Elitism.lean`: `generation` with `std::sort` specified for strict weak orders | sortedness + Pareto ranking (partial) + refuted |
| C200 | `laterScores` | order of reciprocals (partial) + refuted |
| C201 | `Sdp/PrimalDualMehrotra.lean`: runs as sequences of predictor-corrector steps stated without the code's functions | invariant over C187, C188 |
| C202 | `Sgd/Snapshot.lean` models SnapshotSGDR and SnapshotEnsembles over the SGD object; `Sgd/Batches.lean` carries a policy invariant along the coordinates produced; restarts in closed form | induction over batches |
| C203 | number of snapshots against the constructor's count; refuted for `multFactor = 1` | induction over batches, witness |
| C204 | constructor with wrapping exponent and undefined conversion | arithmetic, witness |
| C205 | snapshots held before stay in front and enter the mean; refuted for `resetPolicy` | witness on a flat function |
| C206 | projection of the snapshot policy on `Cyclic`; refuted after a change of the batch size | simulation, witness |
| C207 | restarts of `Cyclic`: full step afterwards for multiplier 1, refuted for 2 | invariant, witness |
| C208 | monotone cosine up to one epoch, refuted in longer cycles | cosine monotone on [0, pi], witness |
| C209 | `Fw/Atoms.lean` models `FuncSq`, `Atoms`, `UpdateSpan`, `UpdateFullCorrection` over real inner product spaces, `arma::solve` a parameter (least squares for independent columns); `Fw/Omp.lean` runs `FrankWolfe` with it | run predicate `OmpRun` without the code's functions; invariant; refuted in the plane |
| C210 | same | independence of images, dimension; decrease per step |
| C211 | `Atoms.prune` | invariant of the loop; first pass by expanding the square, later passes refuted in space |
| C212 | `updateFullCorrection`; projection from `Fw/Proximal.lean` | C48, quadratic along a line; descent refuted |
| C213 | second run from the state the first left | repeated column (partial) + refuted |
| C214 | logistic regression objective over ℝ, all entry points; batches as ranges covering the points once | derivatives by composition, sums over covers, tangent inequality |
| C215 | `Classify` as floor, `ComputeAccuracy` | closed forms; documented strict inequality refuted at equality |
| C216 | shape check of the constructor against the shape `Evaluate` accepts | refuted + exact description |
| C217 | softmax objective over ℝ with and without intercept | reduction to general features; log-sum-exp derivative and tangent |
| C218 | batch `Evaluate`/`Gradient`; matrix product as in line 238 (`none` = throws) | refuted + multiples of the whole for equal batches |
| C219 | `PartialGradient` with row index as coded | proved without intercept; refuted with |
| C220 | `Shuffle` with locations as coded; Armadillo's bounds check | throws when points outnumber classes; refuted otherwise |
| C221 | `SPALeRAStepsize::Policy::Update` over sequences of calls since a reset | invariant over the calls: counters, running mean, minimum of the cumulated deviations |
| C222 | Snyman's and Gockenbach's problem over ℝ, with constraints as coded | derivatives by `GradAt` calculus; minimisers by completing squares under the constraint; refuted where the inequality is strict |
| C223 | `LovaszThetaSDP` for any list of edges and any shape | derivative of the trace form; the coded gradient equals that of the augmented Lagrangian for symmetric coordinates; refuted by small witnesses |
| C224 | the ZDT, DTLZ, MAF, Schaffer and Fonseca-Fleming problems: `Evaluate` and each objective of the tuple, from the loops | unfolding of both loops, ring identities |
| C225 | the same for DTLZ1–6, MAF4 | first objectives agree (partial); the others refuted at one point each |
| C226 | Pareto dominance over all of ℝ resp. ℝⁿ | convexity resp. strict monotonicity argument in both directions |
| C227 | Pareto dominance in the box; `linspace`, `GetReferenceFront` | one lemma on problems (f₁, g·h(f₁, g)); range of f₁ of ZDT6 |
| C228 | Pareto dominance in the unit box; Das–Dennis weights for the front | one lemma on problems v·(rows of fixed p-norm); reuse of C38; refutations for the tuple and for the front of DTLZ2–4 |
| C229 | `MAF2::g` with its loop limits | objectives are functions of two coordinates; every point of the box is Pareto optimal (the third objective decreases with the first variable faster than `g` grows) |
| C230 | Pareto dominance in the unit box for MAF1, 3–5, DTLZ7 | one lemma on problems φᵢ(v·dᵢ) with increasing φᵢ and directions d that form an antichain |
| C231 | `Tchebycheff::Apply`, `WeightedAverage::Apply`, the MOEA/D step | weights 1/(f − z) normalised; monotonicity above the ideal point; refuting run of the full model |
| C232 | `PenaltyBoundaryIntersection::Apply` | orthogonal projection; refuted at w = (3, 4) |
| C233 | `BayesianBootstrap`, `Dirichlet` from the draws; `sort`, `diff`, `normalise` | telescoping sum of a sorted list |
| C234 | `Callbacks/Report` (state machine of `Report` over callback events), `Callbacks/ReportProps` | invariant `Holds` by induction over the events; the recorded events are defined from the event list alone |
| C235 | same; table loop with `Option` for reads past the end and for the `double` to `size_t` conversion | closed form of the loop (`rows_eq`) on aligned vectors; partial: gradient before the first recorded event; negations by closed runs |
| C236 | same; `TruncatePrint` on column-major data with `size_t` subtraction | closed form of the inner loop; partial: one column; negations by closed runs and for all two-column matrices |
| C237 | same; summary, optimiser section, stream precision | computed from `Holds`; negations by closed runs |
| C238 | `Callbacks/Report` (`Bar`), `Callbacks/BarProps`; characters of the bar, width rational | closed form of the drawing loop; for widths above 100 no fuel is enough; the loss by induction over the batches |
| C239 | momentum schedule and constructors of DemonSGD/DemonAdam, their policies in the SGD model (Update/Demon); the counter of the parent is the parameter `t0`, 0 for a new object; the product is not reduced modulo 2^64 | counting updates along the recursion of C149; monotonicity; refutations by witness |
| C240 | members and accessors of AdaBoundUpdate/AMSBoundUpdate (Update/Bound) | induction over sequences of assignments; refutations by witness |
| C241-C243 | polynomial mutation, simulated binary crossover of AGEMOEA, differential operator of MOEA/D, gene by gene over the reals with the random numbers as arguments (Moo/Genes); iterates of one column, since bounds are column vectors | convexity and monotonicity of real powers; case analysis; refutations by witness |
| C244, C245 | Hölder table, Cross-in-Tray and Schaffer N.4 over the reals (Problems/Landscape) | unbounded sequences of points; monotonicity of powers and cosine; refutations by witness |
| C246, C247 | `function/static_checks.hpp` and, per optimizer, which checks it makes on which type and which methods it calls (Adapter/Checks) | exact condition for compiling per optimizer, by cases; refutations with concrete classes |
| C248 | the linear systems of `PrimalDualSolver` (Sdp/PrimalDual) over the reals; `arma::solve` succeeds whenever there is a solution (Sdp/PrimalDualSolvable) | the bilinear form of the matrix is tr(U(XZ+ZX)U) + 2 tr(UXUZ) with U the Lyapunov solution; refutation with a 2x2 example |
| C249 | `SDP::HasLinearlyIndependentConstraints` with the `Svec` of Sdp/Svec; `arma::svd` a parameter specified by its smallest value (Sdp/Independence) | exact meaning of the answer; dimension count for the shortcut; refutations: small constraints, no constraints |
| C250, C251 | runs of `SGD::Optimize` (C149) whose batches are the whole sum, with the update policies of Update/Model on vectors (Converge/Base) | energy functions: objective plus kinetic energy (momentum), objective at the lookahead point (Nesterov), boundedness of the accumulated squares (AdaGrad, WNGrad); results transferred to `Optimize` by `run_iter` |
| C252 | `Cd.optimize` with columns in any real inner product space (Converge/Cd) | the run is textbook coordinate descent (invariant over the loop); descent lemma per step, windows in which every column is picked; counterexample with `greedy` |
| C253, C254 | `Sgd.optimize` with the vanilla / AdaGrad update on vectors; functions as `ConvexSum` (order may change by Shuffle) | bookkeeping predicate kept over batches, epochs, callbacks and all exits (Converge/Regret), one potential per update |
| C255 | RMSProp on the whole sum as in C250 | descent with one step size per coordinate bounded above and below; counterexample: Huber function, iterates alternate between the two slopes (all steps computed) |
| C256 | `Lbfgs.Model` filled with exact arithmetic (`lbfgsEnv`): scaling, two-loop direction, memory ring, line search | bounds on the BFGS matrix in terms of the stored pairs give an angle bound; Wolfe conditions give the decrease; invariant of the memory; the stop by gradient holds for every run because the returned point is never worse than the one the gradient belongs to; polynomial counterexample without convexity |
| C257 | `Gd.Model` with exact arithmetic (`GdExact`), through the textbook iteration of C151 | descent lemma against the tolerance test; quadratics of small curvature as counterexample |
| C258 | AMSGrad and Padam update on vectors (common form `maxMom`), `Sgd.optimize` as in C253; the step callback clips to a box | potential per coordinate: momentum term, weighted squared distance (weights grow with the running maximum), number of steps; kept over batches and epochs by the bookkeeping of C253 |
| C259 | as C258, for six update policies; claim `CloseOnAverage` stated once | positive cases from the bounds of C253, C254, C258; Adam and RMSProp: run on `n x, -x, ..., -x` computed exactly (`sawRun`), moments bounded within a period, `n` chosen by limits |
| C260 | MomentumSGD, NesterovMomentumSGD and QHSGD updates on vectors (common form `Velocity`), `Sgd.optimize` as in C253; the step callback may project onto a convex set | potential: squared distance of the iterate, inner product with the velocity; kept over batches and epochs by the bookkeeping of C253 |
| C261 | the claim `CloseOnAverage` of C259 for six more policies | run on `n x, -x, ..., -x`: moments bounded within a period (`Sawtooth`), common form (weighted average and last gradient over a denominator); OptimisticAdam with the previous direction |
| C262 | the SVRG model of C43/C106 on a sum of smooth functions, callbacks may stop the run | inner loop invariant: the directions differ from the full gradient by at most `(1 + aL)^i - 1` of its norm, so a pass is one step along the full gradient with a small error; then the descent lemma; the outer loop by invariants |
| C263 | the SARAH model of C106/C108 on a sum of smooth functions; SARAH and SARAH+ at once (the flag of the update is arbitrary) | the same with the recursive direction: `norm(v - g)` grows by the factor `1 + aL` per step |
| C264 | constants of `CMAES` and `ActiveCMAES` as real functions of dimension and population size (`Verif/Cmaes/{Numeric,Params}.lean`) | logarithms and inequalities; Cauchy-Schwarz for the effective number of parents |
| C265 | numerical core of a generation (`Cmaes/Numeric.lean`: sampling, recombination, paths, step size, covariance, repair) put into the control-flow model of C27/C83; `arma::chol`, `eig_sym`, `sort_index` are parameters with their documented behaviour (`Lib.Ok`, met by `exactLib`) | invariant of the generation loop; sums of positive semidefinite matrices; ascending eigenvalues (`Cmaes/Covariance.lean`) |
| C266 | the same core (`Cmaes/Recombine.lean`) | folds as sums; weights sum to one |
| C267 | the same core | `eigvec diag(1/eigval) eigvecᵀ` is the inverse; counterexample: second generation of a run in one dimension |
| C268 | the same core, whole runs (`Cmaes/Invariance.lean`) | simulation of two runs of the generation loop |
| C269 | the same core (`Cmaes/Active.lean`) | the first negative eigenvalue of an ascending list is the first; counterexample: first generation of a run on the sphere function |
| C270 | shapes of the products (`Cmaes/Active.lean`) | arithmetic |
| C271 | control-flow model with the core (`Cmaes/Active.lean`) | no parents: `w(0)` does not exist |
| C272 | control-flow model of DE with the arithmetic of `de_impl.hpp` over extended reals (`De/Invariance.lean`) | simulation between the two runs, by induction over generations and members |
| C273 | control-flow model of CNE with the arithmetic of `cne_impl.hpp` (`Cne/Invariance.lean`) | simulation; `sort_index` a parameter that depends on comparisons only |
| C274 | control-flow model of PSO with `LBestUpdate`, `DefaultInit` (`Pso/Invariance.lean`) | simulation; the horizon queue compares differences with a nonpositive tolerance |
| C275 | control-flow model of SA with move generation and control (`Sa/Invariance.lean`) | simulation; acceptance depends on differences over temperature |
| C276 | interleavings of the load and the store of `terminate \|= ...` (`Psgd/Race.lean`); memory is sequentially consistent (the data race is undefined behaviour in C++, this is the most benign reading) | invariants over all executions; witness of two threads |
| C277 | control-flow model of Lookahead over a real vector space (`Lookahead/Descent.lean`) | convexity on the line 172 step, induction over rounds |
| C278 | the models of LogisticRegressionFunction (C214), GD, SGD and SVRG put together (`Converge/Logistic.lean`) | Lipschitz bound of the sigmoid, tangents, compactness for the minimiser, then C16, C257, C253, C262 |
| C279 | outer loop of AugLagrangian (C51) with real arithmetic and the augmented Lagrangian of C50 (`AugLag/Saddle.lean`); assumption: inner runs minimise up to delta/sigma | distance of the multipliers to those of the saddle point as an invariant, Cauchy-Schwarz; endless run by an invariant |
| C280 | OMP as in C209 with the ℓ1 solver of C46 on `FuncSq` (`Fw/OmpRecovery.lean`) | loop invariant: every atom is a multiple of a unit vector of the support; coherence bound on the gradient entries; independent atoms are at most k |
| C281 | two runs of the NSGA2 model, the second with objectives `a k * f k + c k` (`Moo/Affine.lean`) | simulation relation on states: sorting and crowding distances agree; witness for a non-affine map |
| C282 | two runs of the MOEA/D model with objectives `a * f k + c k` (`Moo/MoeadAffine.lean`) | simulation relation; the decompositions are homogeneous; witness for different factors |
| C283 | Two instances of the SGD model related by a change of coordinates (`Sgd/Equivariance.lean`: simulation of whole runs, objects and callbacks); each policy of `Update/Model.lean` commutes with `x ↦ ε x + t` (`Converge/Mirror.lean`); DemonSGD refuted for translations. |
| C284 | Same simulation with linear maps of the whole space for the policies that are linear in gradient and state; refutation by a rational rotation for Adam, AdaGrad, RMSProp (`Converge/Rigid.lean`). |
| C285 | Simulation between two environments of the L-BFGS model (line search, direction, ring of pairs), instantiated with a linear isometry and a translation (`Converge/RigidLbfgs.lean`); the dependence on an added constant is a concrete run. |
| C286 | The run of the SPSA model read as the list of its points (`Spsa/Converge.lean`); descent inequality for one move averaged over the signs, summed over the run; the averages are finite sums over all bit sequences. |
| C287 | Energy argument for the sequence of iterates and velocities of the Nesterov policy, through the model of SGD on the whole sum (`Converge/Accelerated.lean`); the lower bound for StandardSGD is a quadratic chosen by its step size. |
| C288 | Simulation between two users of the Frank-Wolfe model, instantiated with an affine map and the inverse adjoint on gradients, for both update rules including the secant line search (`Fw/Affine.lean`). |
| C289 | Simulation between two environments of the gradient descent model, instantiated with a linear isometry, a translation and an added constant (`Gd/Rigid.lean`). |
| C290 | Sa/Balance.lean: the moves of the SA model as random maps of `Fin n → ℝ` (draws with product uniform measure); reversibility of the Laplace proposal by `u ↦ 1 - u` and translation invariance, acceptance `min 1 (exp(-Δ/T))`, so the flow is symmetric; stationarity of the initial moves by induction with Fubini; connected to `generateMove`/`optimize` |
| C291 | BigBatch/Converge.lean: the big-batch model with the line search of C63 as policy (`armijoEnv`); with a whole batch the growing loop leaves at once, so every pass is a gradient step with Armijo decrease; step sizes bounded below as the search halves only steps above `2(1-c)/L`; induction over passes of the loop, telescoping, Polyak-Łojasiewicz |
| C292 | Vr/Limit.lean, on the sequences of C176 over ℝ: if all points converge to `a`, snapshots converge to `ρ a` with `ρ < 1`; the steps of `z` converge and satisfy a cyclic contraction, so all vanish in the limit; summing over a pass gives `a = 0` for stationary `a`. Witness `(x-1)²/2`: recurrence of order two solved with an exact quadratic invariant, limit 5/8 |
| C293 | Converge/Quadratic.lean: errors along eigenvectors of the Hessian satisfy recurrences of order two; stability by an exact quadratic Lyapunov function (loss `(1-b)((1+b)e_k - a e_{k+1})²`), instability by sign alternation; spectral theorem; both directions stated over runs of the SGD model (`DrivesToZero`) |
| C294 | Cne/Prob.lean runs the CNE model on the list of draws still to come (`Prob/Draws.lean`: independent draws of a discrete distribution); lower bound on the probability that the first child is a copy of the best candidate and is mutated into the level, elitism keeps the hit; induction over generations. A positive tolerance refutes it. |
| C295 | De/Closure.lean: invariant of the member, generation and whole-run loops of the DE model (population, best element and recorded populations lie in a set closed under mutation and crossover), instantiated with coordinate sets; probability version on `Prob/Draws.lean` |
| C296 | `Converge/RandomCd.lean`: runs of `Cd.optimize` indexed by the sequence of draws `Fin K → Fin n`; one-step mean decrease, induction over `K` with `Fin.snoc`, Markov's inequality for the share of bad sequences. |
| C297 | `Sgd/Invariant.lean`: predicates on (functions visited, world, coordinates) preserved by batches and epoch changes hold at the end of every run; `Converge/LastIterate.lean`: cocoercivity, contraction of a batch step, comparison with the shadow sequence that uses the gradients at the minimiser; a fixed point of the epoch map away from the minimiser. |
| C298 | `Fw/SearchRate.lean`: the first secant step is exact for an affine derivative; each pass then beats every point of the segment, which gives the recursion of the rate and a fixed decrease per pass; a flat bowl on which the search always keeps the left endpoint. |
| C299 | `BigBatch/Collapse.lean`: `adaptEnv` = `BigBatchSGD<AdaptiveStepsize>` over the reals (policy = `adaptive` of `BigBatch/Search.lean`, no callbacks); `adapt_run`: a relation between step size, coordinates and reported moves preserved by one pass holds at the end of every run; the step size factor is `1 - batchSize/numFunctions` when the variance term is 0; convexity makes every negative step size fail the search condition |
| C300 | `Iqn/Line.lean`: tables on quadratics of one variable are exact or initial; the residual of the aggregated model is that of the true sum plus the constant of `C44_aggregates_uneven_partial`; a skipped visit happens only where the random point is already the end point. |
| C301 | `schaffer4` of Problems/Model (Evaluate as a real function) | numerical bounds for cos 1 and pi from Mathlib, lower bound of the numerator by Jordan-type inequalities, compactness for existence, exchange of a point for one on an axis (Problems/Schaffer4.lean) |
| C302 | the three overloads `optimizeInit`, `optimize`, `run` of AugLag/Model | unfolding for equality of overloads, invariant for the penalty parameter of a converged run, then one pass of the loop (AugLag/Overloads.lean) |
| C303 | DTLZ5, DTLZ6: `g`, `Evaluate`, objective objects | concavity of sin: where `g = 0` the first objective is smallest; concavity of cos: where `g` is largest the second is; a dominated point for the documented value |
| C304 | MAF6 for every `I` | each point is dominated by the one with the distance variables one half (what the angles gain is less than the distance costs); norm |
| C305 | `SGDR<VanillaUpdate>` object runs on whole batches with the cosine schedule | schedule: a restart, then a full step, always comes again, so the step sizes have no bounded sum; descent with changing step lengths |
| C306 | `Vr/Clip.lean` on the models of `Vr/{Svrg,Sarah,Katyusha}.lean`; Katyusha adds the later batches of the full gradient before the callback sees them (`gradLate`) | SVRG: the full gradient has norm at most c, invariant of the two loops. SARAH, Katyusha: refuted by a family of linear functions, evaluated symbolically; whole batches partial |
| C307 | the models of SoftmaxRegressionFunction (C217), GD, L-BFGS and CD put together (`Converge/Softmax.lean`); CD gets its answers from the modelled `PartialGradient` (`softCd`) | the softmax map is 1/2-Lipschitz (variance bound, mean value theorem); weight decay gives strong convexity; compactness for the minimiser; then C257, C308 (the stopping test of L-BFGS on a matrix), C252 |
| C308 | Shape/Norms.lean: `arma::norm(X)` of a matrix is modelled by the operator norm between Euclidean spaces (Armadillo documents it as the largest singular value; outside /repo); `clipByNorm` and `wnGrad` are used at that normed space, `lbfgsMat` is `lbfgsEnv` with that stopping test | column and row bounds (`fro_le`), Cauchy-Schwarz (`armaNorm_le`); step-by-step comparison of the two L-BFGS runs; identity matrices as witnesses |
| C309 | `Moo/Bounds.lean`: the members `lowerBound`/`upperBound` of NSGA2, AGEMOEA, MOEA/D over a sequence of `Optimize` calls (`prepare`, `after`), with the exceptions of Armadillo and the assertions as `none`; PSO through `useBounds` of `Pso/Policy.lean` | refuted by a witness (two variables, then three); invariant "the bounds are constant vectors" by induction over the calls; characterisation of the accepted sequences |
| C310 | `Moo/Events.lean`: the user code keeps a record of its calls (`Watched`, satisfiable for any user code by `recording`); whole runs of the models of NSGA2, AGEMOEA, MOEA/D | the record after the run is given as an explicit list, by induction over the generations; the counts follow from it |
| C311 | `Sgd/Record.lean`, `Gd/Record.lean`, `Sa/Record.lean`, `Fw/Record.lean`: a projection of the user's world to which every call appends (`Logs`; `logging` adds one to any user code) | invariant: the log of the world is the user-visible part of the trace; with the trace laws of C11/C14 for what follows a request |
| C312 | `Sgd/Setters.lean`: the members that the setters assign and the rest of the object (`Handle`), a setting as an assignment, `Args.set` the constructor argument it amounts to | SGDR: any sequence of settings on a new object gives the run of the object constructed with the final values; SnapshotSGDR: the same when the batch size and the number of restarts are unchanged; refuted for the iteration limit (4 batches, snapshot threshold from the constructor) |
| C313 | the SGD loop and object and the gradient descent loop, unchanged; `Splittable`/`SplitUser` state what callbacks and tolerance must satisfy (`Sgd/Resume.lean`, `Gd/Resume.lean`) | the first loop is a prefix of the long one (induction over passes), the second runs alike shifted by the limit (simulation relation); a momentum run shows that a reset between the calls changes the result |
| C314 | Runs of the SA, DE and CNE models (Sa/Start.lean): energy returned against the objective of the starting point | Partial: a concrete losing run for each; SA never worse when worse energies are never accepted, and with the code's rule and exponential cooling at most `T0 (initMoves + 1/lambda) log(1/xi0)` worse (potential `energy + log(1/xi0) temp / lambda` along the main loop) |
| C315 | The interleaving model of C42 with gradients of Lipschitz functions read at coordinates mixed from old and new values (`Torn`, `Reads`), and the outer loop with `ConstantStep` (Psgd/Hogwild.lean) | Proved: points read in a round stay within `2 a n (Gamma + L D)` of its start (induction over the gradients computed), so a round is a gradient step up to second order in the step size; contraction of the gradient step and induction over rounds |
| C316 | As C315 with the state of `ExponentialBackoff` threaded through the outer loop (Psgd/BackoffRun.lean) | Partial: convergence refuted (each round moves by at most `2 n a L` times the distance, `exp(-2t) <= 1 - t`, summable step sizes of C105); upper bound with the product of the contraction factors |
| C317 | the loops of FrankWolfe and CD, unchanged (`Cd.Result` now carries the world left by `EndOptimization`); `Fw/Resume.lean`, `Cd/Resume.lean`, generic lemmas in `Resume.lean` | the first loop is a prefix of the long one, the second a simulation shifted by the number of steps; UpdateClassic: invariant abs x >= 1/3 over any number of one-step calls; CyclicDescent: invariant that column 0 is untouched while the counter is below the number of features |
| C318 | the survival scores of AGEMOEA, unchanged (`Moo/SurvivalScale.lean`); `Ops.Homogeneous`: what `arma::solve` does under a factor | every comparison is between quantities multiplied by the same power of the factor; the normalised members of the first front are the same, also where the greatest value is 0; concrete populations for different factors and for the later fronts |
| C319 | LBestPSO (default factors, DefaultInit) over the reals with random vectors drawn from a finite distribution with the moments of the uniform one (`Pso/Plateau`, on top of `Pso/Invariance` and the textbook iteration C160) | convergence to the global minimum refuted: a quadratic form in distance and velocity does not grow on average, so by Ville's inequality (`Prob/Ville`, induction on the draws) the swarm never leaves a plateau of radius R with probability ≥ 1 − 0.578 n d / R², for every number of iterations, and collapses onto its starting points geometrically; concrete continuous objective with probability 0.999 |
| C320 | `Verif/Converge/Restless.lean`: the run of `SGD::Optimize` (C149) with batches of one function as the cyclic recursion `cyc`; `Restless` says that short steps force short gradients, shown for fifteen update rules of `Verif/Update/Model.lean` | bounded second moments bound the quotient from below, so vanishing steps make the first moment and then the gradients vanish; along the visits of one function continuity gives a zero gradient at the limit; two functions with different minimisers refute the convergence of AMSGrad. Exact arithmetic, functions visited in order. |
| C321 | `Verif/EndLast.lean` over the existing models of eight optimizers, whose final state holds the coordinates after `EndOptimization`; the models of SGD, GradientDescent and CD record the coordinates passed to the callback and are not covered | the run with a callback equals the run without followed by the callback, since no part of the loop reads it; `PrimalDualSolver` refuted by a concrete run in dimension 1 |
| C322 | `Verif/Spsa/Setter.lean` over `Verif/Spsa/Model.lean`: the accessor as an assignment of one member | the loop reads only the two gain sequences, so the run after the accessor is a prefix of the run as constructed (induction); one iteration on a line ends elsewhere for every decaying step size |
| C323 | `Verif/Update/DemonSetter.lean` over the SGD model with the DemonSGD and DemonAdam policies (C239); shuffling, callbacks that act and several coordinates not covered | the update-by-update description of a run (C239) with the stale schedule; momentum zero at update `m₀ b₀`, negative after; two updates on a slope for the refutation |
| C324 | `Verif/Spsa/Resume.lean` over `Verif/Spsa/Model.lean`; `after` exposes the random numbers left by a call, which `Result` does not record (`after_x` ties it to `optimize`) | the loop without stops is an iteration of one map depending on the iteration number (induction); splits when the gains are constant; sums of gains on a line otherwise |
| C325 | `Verif/Vr/{Svrg,Sarah,Katyusha}Resume.lean` over the models of C106-C112; the world carries what outlives a call (function, callbacks, decay policy, which SVRG makes once) | the call of `a` epochs is a prefix of the call of `a + b` (`iterate_prefix`), the second call runs in step with its rest, events prefixed (`iterate_sim`); Katyusha refuted by a kernel-evaluated run on two quadratics |
| C326 | `Verif/AugLag/Resume.lean` over the model of C51: repeated calls of the second overload on one object (`calls`); continuing with the first overload | invariant: the penalty parameter has been multiplied fewer times than passes made; members unchanged by a call that does not converge (C302), induction over the calls; the positive part by `iterate_prefix` and `iterate_sim` |
| C327 | `Verif/Lbfgs/Resume.lean` over the models of C39 and C99: repeated calls on one object (`calls`), the same optimizer with another memory (`Env.withMemory`) | kernel-evaluated run over the rationals for the refutation; simulation of the two optimizers (`iterate_sim`) and induction over the calls |
| C328 | `Verif/Psgd/Resume.lean` over the models of C104 and of `ExponentialBackoff`: two calls against one, and `k` calls on one object (`calls`) | `iterate_prefix` and `iterate_sim` for policies that ignore the epoch; for `ExponentialBackoff` an invariant (policy unchanged while the epoch is below the cutoff), induction over the calls, and a kernel-evaluated run |
| C329 | `Verif/Iqn/Warm.lean` over the model of IQN: a run started at a zero of all gradients, tables started at the random point | invariant (coordinates unchanged; tables still those of the random point, or of the coordinates) for one batch; kernel-evaluated run over the rationals for the refutation |
| C64, C153 | `Indicators/Model.lean`: IGD, IGD+, epsilon over ℝ, zero division explicit | order lemmas on folds; equivalences for the zero sets and the covering factor; witnesses for negative and zero objectives |
| C65, C154 | `Evaluate`/`Gradient` of 29 bundled problems, each formula over the reals as written in the code | Fréchet derivative proved from partial derivatives (`GradAt.of_partials`); wrong gradients refuted with a point and, where possible, described exactly |
| C66, C155 | the batch loops of the separable problems, visiting order a parameter | induction on the batches |
| C67, C156 | `GetFinalPoint`/`GetFinalObjective` | sums of squares, `cos ≤ 1`, `exp` bounds; interval bounds for numeric constants |
| C68 | CNE generation step | invariant; witness for the elite part |
| C69, C117 | secant line search, NaN and signed zeros explicit | loop invariant; witness |
| C70 | `Sdp/Lrsdp.lean`: cached matrix as state, sequences of calls | partial: coherent sequences; refuted for others with a 1x1 program |
| C71 | `QueryFront` callback | induction over notifications |
| C72-C73 | SGDR schedule | invariant over batches; witness |
| C74-C75 | SA loop and its temperature member | witnesses; exact final state |
| C76 | DE crossover over element indices | induction; witness |
| C77-C78 | CNE run, argument checks in 64-bit arithmetic | witnesses; case analysis |
| C79-C80 | PSO run with horizon queue | witnesses; invariant on the iteration count |
| C81 | process-wide static in the constriction update | witness; first-call theorem |
| C83-C84 | CMA-ES stopping counters; selection policies | invariant; witness |
| C85-C87 | POP-CMA-ES restart loop over abstract inner runs | witnesses; exact overcount; invariant on the record runs (C87) and on the prefixes of the list of runs (C86) |
| C88 | nested evaluation recursion | exact call count by induction; witness |
| C89 | value loops of the three multi-objective optimizers | witnesses; exact description |
| C90 | crowding distance | sorting lemmas, fold invariants |
| C91-C92 | NSGA2 run | witnesses; for C91 also: the extreme solutions have infinite crowding distance and survive (no copies); totality invariant |
| C93, C95-C98 | MOEA/D run, mating, neighbourhoods | loop invariant; witnesses; with positive weights the members of one position never get dominated by their predecessors |
| C94 | AGEMOEA run | invariant |
| C99-C103 | L-BFGS line search and main loop with abstract arithmetic | loop invariants (best trial, decreasing values); scalar witnesses |
| C104 | ParallelSGD outer loop | loop invariant; witnesses |
| C105 | ExponentialBackoff | closed form by induction, potential argument |
| C106, C109, C112 | SVRG, SARAH, Katyusha loops with abstract updates | loop invariant on the event trace; for C106 also that the trace equals a record kept by the user code in its own world (`Vr/Record.lean`) (for C109: number of steps less number of notifications); witnesses |
| C107 | Barzilai-Borwein decay | algebra; value of the step when the gradient difference is proportional to the displacement; run on a quadratic as witness |
| C108 | SARAH estimator over a real vector space | loop invariant; witness |
| C110, C111 | Katyusha over an ordered field | closed form of the normaliser by induction, loop invariant; witnesses |
| C113, C115 | IQN loops, tables and aggregates over a module | loop = fold over a permutation of the batches; loop invariant; witnesses |
| C114 | IQN secant update with abstract matrix operations | algebra |
| C116 | shape check of the IQN step | arithmetic |
