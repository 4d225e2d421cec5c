{"id": "C01", "title": "A stop request from any callback is honoured, in order, exactly once", "statement": "When several callbacks are passed to Optimize(), each notification reaches them in the order they were passed; the notification reports 'stop' iff one of the callbacks it reached returned true; callbacks after the first one that returned true are not called for that notification; a callback without the method, or with a void method, never stops. BeginOptimization and EndOptimization reach every callback exactly once.", "quantifier": "every list of callbacks (any mix of bool, void and missing handlers), every callback state, every notification", "why_tests_cant": "The number and mix of callbacks is unbounded and the outcome depends on every prefix of answers.", "anchors": [{"file": "include/ensmallen_bits/callbacks/callbacks.hpp", "symbols": ["Callback::Evaluate", "Callback::BeginEpoch", "Callback::EndEpoch", "Callback::StepTaken", "Callback::BeginOptimization", "Callback::EndOptimization"]}]}
{"id": "C02", "title": "EvaluateWithGradient notification: evaluation handlers before gradient handlers", "statement": "For one EvaluateWithGradient notification every Evaluate handler runs (until one stops) before any Gradient handler, and no Gradient handler runs if an Evaluate handler asked to stop.", "quantifier": "every list of callbacks and every answer pattern", "why_tests_cant": "Unbounded callback lists and answer patterns.", "anchors": [{"file": "include/ensmallen_bits/callbacks/callbacks.hpp", "symbols": ["Callback::EvaluateWithGradient"]}]}
{"id": "C03", "title": "EarlyStopAtMinLoss stops exactly at the end of the patience window", "statement": "Over any sequence of epoch losses, EarlyStopAtMinLoss asks to stop at epoch t iff the number of consecutive epochs up to t that did not improve strictly on the best loss seen so far has reached patience; it never stops at an improving epoch (patience >= 1).", "quantifier": "every sequence of epoch losses (any strict order, NaN included as an incomparable value) and every patience", "why_tests_cant": "The history of losses is unbounded.", "anchors": [{"file": "include/ensmallen_bits/callbacks/early_stop_at_min_loss.hpp", "symbols": ["EarlyStopAtMinLossType::EndEpoch"]}]}
{"id": "C04", "title": "StoreBestCoordinates holds the first minimiser of everything evaluated", "statement": "After any sequence of Evaluate notifications the stored objective is the least reported objective below the initial maximum and the stored coordinates are those of the first notification that attained it; no reported objective is strictly smaller.", "quantifier": "every sequence of (coordinates, objective) notifications", "why_tests_cant": "Unbounded notification histories.", "anchors": [{"file": "include/ensmallen_bits/callbacks/store_best_coordinates.hpp", "symbols": ["StoreBestCoordinates::Evaluate", "BestObjective", "BestCoordinates"]}]}
{"id": "C05", "title": "A reused StoreBestCoordinates reports the best of the current run", "statement": "If the same callback object is passed to a second Optimize() call, BestCoordinates() afterwards belongs to the second run.", "quantifier": "every pair of consecutive runs", "why_tests_cant": "Quantifies over pairs of histories. (The code does not reset the callback, so this is false in general.)", "anchors": [{"file": "include/ensmallen_bits/callbacks/store_best_coordinates.hpp", "symbols": ["StoreBestCoordinates::Evaluate"]}]}
{"id": "C06", "title": "Gradient clipping by norm bounds the norm and keeps the direction", "statement": "After GradClipByNorm(maxNorm) the gradient has norm at most maxNorm, is a non-negative multiple of the original gradient, and is unchanged when the original norm was already at most maxNorm.", "quantifier": "every gradient vector of every dimension and every maxNorm >= 0", "why_tests_cant": "Continuous inputs of every dimension.", "anchors": [{"file": "include/ensmallen_bits/callbacks/grad_clip_by_norm.hpp", "symbols": ["GradClipByNorm::Gradient"]}]}
{"id": "C07", "title": "Gradient clipping by value is the projection onto the box", "statement": "After clipping to [lower, upper] every coordinate lies in the interval, coordinates already inside are unchanged, clipping twice equals clipping once, and the order of coordinates is preserved. The same holds for the GradientClipping update policy.", "quantifier": "every gradient and every lower <= upper", "why_tests_cant": "Continuous inputs of every dimension.", "anchors": [{"file": "include/ensmallen_bits/callbacks/grad_clip_by_value.hpp", "symbols": ["GradClipByValue::Gradient"]}, {"file": "include/ensmallen_bits/sgd/update_policies/gradient_clipping.hpp", "symbols": ["GradientClipping::Policy::Update"]}]}
{"id": "C08", "title": "SGD: every batch is a legal range and each epoch visits every function exactly once", "statement": "In every call the optimizer makes to EvaluateWithGradient(x, begin, g, size): size >= 1 and begin + size <= NumFunctions(). The batches between two consecutive epoch ends are consecutive ranges that start at 0 and end at NumFunctions(), so every separable function is visited exactly once per completed epoch.", "quantifier": "every NumFunctions() >= 1, batchSize >= 1, maxIterations, every objective function, update policy, decay policy, callback and shuffle behaviour", "why_tests_cant": "Depends on all combinations of three sizes and on arbitrary user code; unbounded number of epochs.", "anchors": [{"file": "include/ensmallen_bits/sgd/sgd_impl.hpp", "symbols": ["SGD::Optimize"]}]}
{"id": "C09", "title": "SGD never visits more than maxIterations functions, and terminates", "statement": "With maxIterations > 0, batchSize >= 1 and NumFunctions() >= 1 Optimize() returns, and the batch sizes of all its gradient evaluations sum to at most maxIterations; they sum to exactly maxIterations if no callback asked to stop and neither NaN/Inf nor the tolerance ended the run.", "quantifier": "every size combination and every user-supplied component", "why_tests_cant": "Termination and budget for all sizes and arbitrary user code.", "anchors": [{"file": "include/ensmallen_bits/sgd/sgd_impl.hpp", "symbols": ["SGD::Optimize"]}]}
{"id": "C10", "title": "SGD: exactObjective returns the full objective at the returned coordinates", "statement": "With exactObjective = true and a deterministic objective, a run that does not end through NaN/Inf or tolerance returns the sum of Evaluate over consecutive ranges covering every function exactly once, evaluated at the coordinates handed back to the caller.", "quantifier": "every size combination and every user-supplied component", "why_tests_cant": "Unbounded sizes and arbitrary user code.", "anchors": [{"file": "include/ensmallen_bits/sgd/sgd_impl.hpp", "symbols": ["SGD::Optimize"]}]}
{"id": "C11", "title": "SGD: notification protocol and prompt stop", "statement": "Every run notifies BeginOptimization exactly once and first and EndOptimization exactly once and last (with the coordinates handed back). After a callback asks to stop, no further gradient is evaluated and no further update is applied; if the request came from the evaluation notification the coordinates are not changed by that iteration either.", "quantifier": "every run", "why_tests_cant": "Traces of unbounded length under arbitrary callbacks.", "anchors": [{"file": "include/ensmallen_bits/sgd/sgd_impl.hpp", "symbols": ["SGD::Optimize"]}]}
{"id": "C12", "title": "SGD: the returned value is an objective of the run", "statement": "Without exactObjective, the returned value is the accumulated objective of the last (complete or partial) epoch that was run.", "quantifier": "every run", "why_tests_cant": "Arbitrary callbacks and histories. (False when a callback stops the run at an epoch end: the code has already reset the accumulator and returns 0.)", "anchors": [{"file": "include/ensmallen_bits/sgd/sgd_impl.hpp", "symbols": ["SGD::Optimize"]}]}
{"id": "C13", "title": "Resetting policies makes a reused SGD object behave like a new one", "statement": "With resetPolicy = true a second Optimize() on the same object performs the same run as a freshly constructed object with the same parameters would.", "quantifier": "every history of previous calls", "why_tests_cant": "Quantifies over call histories. (False for decay policies: their state and the decayed step size survive.)", "anchors": [{"file": "include/ensmallen_bits/sgd/sgd_impl.hpp", "symbols": ["SGD::Optimize"]}, {"file": "include/ensmallen_bits/sgd/sgd.hpp", "symbols": ["ResetPolicy", "StepSize"]}]}
{"id": "C14", "title": "Gradient descent: iteration count and returned objective", "statement": "GradientDescent performs at most maxIterations - 1 evaluations/steps when maxIterations > 0; the returned objective is the objective of the last evaluated point; on tolerance/NaN exit the returned coordinates are exactly that point.", "quantifier": "every objective, start, step size, tolerance, callbacks", "why_tests_cant": "Arbitrary user code and unbounded iterations.", "anchors": [{"file": "include/ensmallen_bits/gradient_descent/gradient_descent_impl.hpp", "symbols": ["GradientDescent::Optimize"]}]}
{"id": "C15", "title": "Gradient descent returns the objective of the returned coordinates", "statement": "The value returned by Optimize() equals the objective at the coordinates handed back.", "quantifier": "every run", "why_tests_cant": "Arbitrary user code. (False when the iteration limit ends the run: the last step is applied after the last evaluation.)", "anchors": [{"file": "include/ensmallen_bits/gradient_descent/gradient_descent_impl.hpp", "symbols": ["GradientDescent::Optimize"]}]}
{"id": "C16", "title": "Gradient descent decreases smooth objectives and converges", "statement": "For an L-smooth objective and 0 < stepSize <= 1/L the objective never increases from step to step and after k steps min ||grad||^2 <= 2 (f(x0) - inf f) / (stepSize k); for convex f, f(x_k) - f* <= ||x0 - x*||^2 / (2 stepSize k) (exact arithmetic).", "quantifier": "every L-smooth function on every finite-dimensional (inner product) space, every start, every k", "why_tests_cant": "A statement about all functions and unbounded iterations.", "anchors": [{"file": "include/ensmallen_bits/gradient_descent/gradient_descent_impl.hpp", "symbols": ["GradientDescent::Optimize"]}]}
{"id": "C17", "title": "Grid search returns the exact minimum over the whole grid", "statement": "GridSearch evaluates every combination of category values exactly once, and the returned objective and coordinates are those of the first combination (in lexicographic order) with minimal objective (below the numeric maximum).", "quantifier": "every number of dimensions, every category count, every objective", "why_tests_cant": "Unbounded number of dimensions and arbitrary objective.", "anchors": [{"file": "include/ensmallen_bits/grid_search/grid_search_impl.hpp", "symbols": ["GridSearch::Optimize", "GridSearch::Optimize (recursive)"]}]}
{"id": "C18", "title": "Coordinate descent: single coordinate moves and consistent result", "statement": "Each SCD/CD iteration changes only the column chosen by the descent policy, by -stepSize times the partial gradient; the returned value is the objective of the returned coordinates; the cyclic policy selects every feature exactly once in any window of NumFeatures() iterations; the greedy policy selects a feature of largest gradient norm.", "quantifier": "every objective, start, iteration limit, number of features", "why_tests_cant": "Unbounded iterations, arbitrary objective.", "anchors": [{"file": "include/ensmallen_bits/cd/cd_impl.hpp", "symbols": ["CD::Optimize"]}, {"file": "include/ensmallen_bits/cd/descent_policies/cyclic_descent.hpp", "symbols": ["CyclicDescent::DescentFeature"]}, {"file": "include/ensmallen_bits/cd/descent_policies/greedy_descent.hpp", "symbols": ["GreedyDescent::DescentFeature"]}]}
{"id": "C19", "title": "Simulated annealing: the returned energy is the energy of the returned coordinates", "statement": "At every moment, including return, the current energy equals the objective at the current coordinates; a move that does not worsen the objective is always accepted; at temperature > 0 a worsening move is accepted only if exp(-delta/T) exceeds the drawn number, and rejected moves leave the coordinates unchanged.", "quantifier": "every objective, random source, schedule, sweep/move-control setting", "why_tests_cant": "All random draws and unbounded moves.", "anchors": [{"file": "include/ensmallen_bits/sa/sa_impl.hpp", "symbols": ["SA::Optimize", "SA::GenerateMove", "SA::MoveControl"]}, {"file": "include/ensmallen_bits/sa/exponential_schedule.hpp", "symbols": ["NextTemperature"]}]}
{"id": "C20", "title": "Differential evolution: monotone best and consistent result", "statement": "DE returns the objective of the coordinates it hands back; the population's fitness never worsens member by member from one generation to the next; every member's recorded fitness is its objective.", "quantifier": "every objective, every random draw, every population size >= 3, every number of generations", "why_tests_cant": "All random draws and unbounded generations.", "anchors": [{"file": "include/ensmallen_bits/de/de_impl.hpp", "symbols": ["DE::Optimize"]}]}
{"id": "C21", "title": "Differential evolution mutates with distinct members", "statement": "The two difference members used to build a mutant are distinct from each other and from the member being mutated.", "quantifier": "every random draw", "why_tests_cant": "All random streams. (False: the re-draw condition uses && instead of ||.)", "anchors": [{"file": "include/ensmallen_bits/de/de_impl.hpp", "symbols": ["DE::Optimize"]}]}
{"id": "C22", "title": "DE returns the best member of the population", "statement": "The returned objective is the minimum fitness of the final population.", "quantifier": "every run", "why_tests_cant": "All random streams. (False when the tolerance test leaves the loop before the new best is recorded.)", "anchors": [{"file": "include/ensmallen_bits/de/de_impl.hpp", "symbols": ["DE::Optimize"]}]}
{"id": "C23", "title": "Particle swarm: returned value and coordinates match and are the best seen", "statement": "When the run passes its first iteration, the returned objective equals the objective at the returned coordinates and no particle's recorded personal best is smaller; personal bests never worsen and always equal the objective of the recorded personal-best position.", "quantifier": "every objective, update policy, random draw, swarm size and horizon", "why_tests_cant": "All random draws and unbounded iterations.", "anchors": [{"file": "include/ensmallen_bits/pso/pso_impl.hpp", "symbols": ["PSOType::Optimize"]}]}
{"id": "C24", "title": "LBest PSO uses the best of the ring neighbourhood {left, self, right}", "statement": "Each particle's local best index is the index of the best personal best among itself and its two ring neighbours.", "quantifier": "every swarm size and every fitness vector", "why_tests_cant": "Unbounded swarm size. (False: the code overwrites the comparison with the left neighbour.)", "anchors": [{"file": "include/ensmallen_bits/pso/update_policies/lbest_update.hpp", "symbols": ["LBestUpdate::Policy::Update", "Initialize"]}]}
{"id": "C25", "title": "PSO initial particles lie within the bounds", "statement": "Initial particle positions lie within [lowerBound, upperBound] in every coordinate.", "quantifier": "every bound pair with lower <= upper and every random draw", "why_tests_cant": "Continuous inputs. (False for scalar bounds: the lower bound is negated.)", "anchors": [{"file": "include/ensmallen_bits/pso/init_policies/default_init.hpp", "symbols": ["DefaultInit::Initialize"]}]}
{"id": "C26", "title": "CMA-ES boundary transformation maps every point into the box and fixes its interior", "statement": "Transform(x) lies within [lower, upper] in every coordinate for every real x, and Transform(x) = x when x lies in [lower + al, upper - au].", "quantifier": "every x and every lower < upper", "why_tests_cant": "Continuous unbounded inputs.", "anchors": [{"file": "include/ensmallen_bits/cmaes/transformation_policies/boundary_box_constraint.hpp", "symbols": ["BoundaryBoxConstraint::Transform"]}]}
{"id": "C27", "title": "CMA-ES: monotone objective and consistent result", "statement": "The value returned by CMAES::Optimize equals the objective of the returned (transformed) coordinates and is no larger than the objective at the starting point.", "quantifier": "every deterministic objective, every random draw, every covariance update", "why_tests_cant": "All random draws and unbounded iterations.", "anchors": [{"file": "include/ensmallen_bits/cmaes/cmaes_impl.hpp", "symbols": ["CMAES::Optimize"]}]}
{"id": "C28", "title": "Restart CMA-ES never returns worse than any of its runs", "statement": "POP_CMAES returns an objective no larger than that of every inner run it performed and the coordinates that attained it, and performs at most maxRestarts + 1 inner runs.", "quantifier": "every sequence of inner results", "why_tests_cant": "Unbounded number of restarts, arbitrary inner results.", "anchors": [{"file": "include/ensmallen_bits/cmaes/pop_cmaes_impl.hpp", "symbols": ["POP_CMAES::Optimize"]}]}
{"id": "C29", "title": "Pareto dominance is a strict partial order", "statement": "Dominates() is irreflexive, asymmetric and transitive, and p dominates q iff p is no worse in every objective and strictly better in at least one.", "quantifier": "every population and every number of objectives", "why_tests_cant": "All populations and objective counts.", "anchors": [{"file": "include/ensmallen_bits/nsga2/nsga2_impl.hpp", "symbols": ["NSGA2::Dominates"]}, {"file": "include/ensmallen_bits/agemoea/agemoea_impl.hpp", "symbols": ["AGEMOEA::Dominates"]}]}
{"id": "C30", "title": "Fast non-dominated sorting computes the Pareto ranking", "statement": "The fronts partition the population; front 0 is exactly the set of non-dominated members; members of the same front never dominate each other; every member of front k+1 is dominated by some member of front k; nobody is dominated by a member of the same or a later front; the stored rank is the front number.", "quantifier": "every population size and every number of objectives", "why_tests_cant": "All populations.", "anchors": [{"file": "include/ensmallen_bits/nsga2/nsga2_impl.hpp", "symbols": ["NSGA2::FastNonDominatedSort"]}, {"file": "include/ensmallen_bits/agemoea/agemoea_impl.hpp", "symbols": ["AGEMOEA::FastNonDominatedSort"]}]}
{"id": "C31", "title": "Multi-objective optimizers keep every individual inside the bounds", "statement": "Every individual of every generation of NSGA2, AGEMOEA and MOEA/D lies within [lowerBound, upperBound] coordinate-wise.", "quantifier": "every random draw, every number of generations, every bound pair lower <= upper", "why_tests_cant": "All random draws and unbounded generations.", "anchors": [{"file": "include/ensmallen_bits/nsga2/nsga2_impl.hpp", "symbols": ["NSGA2::Optimize", "NSGA2::Mutate"]}, {"file": "include/ensmallen_bits/agemoea/agemoea_impl.hpp", "symbols": ["AGEMOEA::Mutate"]}, {"file": "include/ensmallen_bits/moead/moead_impl.hpp", "symbols": ["MOEAD::Optimize", "MOEAD::Mutate"]}]}
{"id": "C32", "title": "Population-size guards reject what they document", "statement": "NSGA2 and AGEMOEA throw for every population size smaller than 4 or not a multiple of 4.", "quantifier": "every population size", "why_tests_cant": "Unbounded domain. (False: the guard uses && instead of ||, so e.g. 6 is accepted.)", "anchors": [{"file": "include/ensmallen_bits/nsga2/nsga2_impl.hpp", "symbols": ["NSGA2::Optimize"]}, {"file": "include/ensmallen_bits/agemoea/agemoea_impl.hpp", "symbols": ["AGEMOEA::Optimize"]}]}
{"id": "C33", "title": "NSGA2 crossover exchanges genes between the parents", "statement": "At every coordinate one child carries parent A's gene and the other parent B's gene.", "quantifier": "every parent pair and every random draw", "why_tests_cant": "Continuous inputs. (False: the second child is always a copy of parent A.)", "anchors": [{"file": "include/ensmallen_bits/nsga2/nsga2_impl.hpp", "symbols": ["NSGA2::Crossover"]}]}
{"id": "C34", "title": "NSGA2 Pareto set corresponds to the Pareto front", "statement": "The i-th element of ParetoSet() has the objectives given by the i-th element of ParetoFront().", "quantifier": "every run", "why_tests_cant": "Depends on sorting and stale indices over arbitrary populations. (False in general; the code indexes the re-sorted population with fronts computed before sorting.)", "anchors": [{"file": "include/ensmallen_bits/nsga2/nsga2_impl.hpp", "symbols": ["NSGA2::Optimize"]}]}
{"id": "C35", "title": "AGEMOEA returns a member of the final population", "statement": "The coordinates handed back are a valid member of the final population.", "quantifier": "every run", "why_tests_cant": "Depends on arbitrary objective values. (False: a stale index into the doubled population is used after truncation.)", "anchors": [{"file": "include/ensmallen_bits/agemoea/agemoea_impl.hpp", "symbols": ["AGEMOEA::Optimize"]}]}
{"id": "C36", "title": "MOEA/D ideal point is the running minimum of everything evaluated", "statement": "After any number of evaluations each component of the ideal point is the minimum of that objective over the initial population and every candidate evaluated so far.", "quantifier": "every sequence of evaluations", "why_tests_cant": "Unbounded histories.", "anchors": [{"file": "include/ensmallen_bits/moead/moead_impl.hpp", "symbols": ["MOEAD::Optimize"]}]}
{"id": "C37", "title": "MOEA/D replacement is bounded and improving", "statement": "One candidate replaces at most maxReplace members; each replaced member's decomposition value strictly improves; all other members stay unchanged.", "quantifier": "every population, weight set, decomposition and neighbourhood", "why_tests_cant": "Arbitrary populations and decompositions.", "anchors": [{"file": "include/ensmallen_bits/moead/moead_impl.hpp", "symbols": ["MOEAD::Optimize"]}]}
{"id": "C38", "title": "MOEA/D weight vectors lie on the simplex", "statement": "The uniform (Das-Dennis) reference directions are non-negative, each sums to 1, are pairwise distinct, and their number is the binomial coefficient of the partition count.", "quantifier": "every number of objectives and every partition count", "why_tests_cant": "Recursive generation of unbounded depth.", "anchors": [{"file": "include/ensmallen_bits/moead/weight_init_policies/uniform_init.hpp", "symbols": ["Uniform::DasDennis", "Uniform::FindNumUniformPoints"]}]}
{"id": "C39", "title": "L-BFGS direction is the BFGS quasi-Newton direction of the stored pairs", "statement": "The search direction equals -H g where H is obtained from the scaled identity by applying the BFGS inverse update for the stored (s, y) pairs from oldest to newest; if all stored pairs have s.y > 0 and the scaling is positive then the direction is a descent direction for g != 0.", "quantifier": "every gradient, every number of stored pairs, every inner product space", "why_tests_cant": "Algebraic identity for unbounded memory size and dimension.", "anchors": [{"file": "include/ensmallen_bits/lbfgs/lbfgs_impl.hpp", "symbols": ["L_BFGS::SearchDirection"]}]}
{"id": "C40", "title": "L-BFGS memory holds exactly the most recent numBasis pairs", "statement": "At iteration k the pairs used by the direction are those of the last min(k, numBasis) iterations, newest first.", "quantifier": "every numBasis >= 1 and every k", "why_tests_cant": "Ring-buffer indexing for unbounded k.", "anchors": [{"file": "include/ensmallen_bits/lbfgs/lbfgs_impl.hpp", "symbols": ["L_BFGS::UpdateBasisSet", "L_BFGS::SearchDirection", "L_BFGS::ChooseScalingFactor"]}]}
{"id": "C41", "title": "Parallel SGD covers every function exactly once per iteration", "statement": "The per-thread index ranges are disjoint and, together, visit every separable function exactly once whenever threads * threadShareSize >= NumFunctions(); the visitation order is a permutation.", "quantifier": "every thread count, share size and number of functions", "why_tests_cant": "All size combinations.", "anchors": [{"file": "include/ensmallen_bits/parallel_sgd/parallel_sgd_impl.hpp", "symbols": ["ParallelSGD::Optimize"]}]}
{"id": "C42", "title": "Parallel SGD: the result of a round of lock-free updates with fixed gradients does not depend on the schedule", "statement": "When the gradients applied in a round do not depend on reads made in the round, every interleaving of the threads' atomic coordinate updates yields the same coordinates (exact arithmetic) and no update is lost.", "quantifier": "every interleaving of every number of threads", "why_tests_cant": "Exponentially many schedules, unbounded thread counts.", "anchors": [{"file": "include/ensmallen_bits/parallel_sgd/parallel_sgd_impl.hpp", "symbols": ["ParallelSGD::Optimize"]}]}
{"id": "C43", "title": "SVRG direction is unbiased and exact at the snapshot", "statement": "Averaged over all functions the SVRG direction at x equals the full gradient at x; at the snapshot itself it equals the full gradient; the full gradient is the average over all functions regardless of batchSize.", "quantifier": "every gradient field, every number of functions, every batch size", "why_tests_cant": "Identity over arbitrary gradients and sizes.", "anchors": [{"file": "include/ensmallen_bits/svrg/svrg_impl.hpp", "symbols": ["SVRGType::Optimize"]}, {"file": "include/ensmallen_bits/svrg/svrg_update.hpp", "symbols": ["SVRGUpdate::Update"]}]}
{"id": "C44", "title": "IQN keeps its aggregates consistent", "statement": "The stored aggregate Hessian, gradient and product vectors always equal the averages of the per-batch quantities.", "quantifier": "every number of iterations and batches", "why_tests_cant": "Invariant over unbounded executions. (False when batch sizes are unequal.)", "anchors": [{"file": "include/ensmallen_bits/iqn/iqn_impl.hpp", "symbols": ["IQN::Optimize"]}]}
{"id": "C45", "title": "Frank-Wolfe iterates stay feasible", "statement": "If the start is in the convex constraint set and the linear minimisation oracle returns points of it, every iterate (classic and line-search updates) is in it.", "quantifier": "every convex set, objective, oracle and number of iterations", "why_tests_cant": "Unbounded iterations, arbitrary convex sets.", "anchors": [{"file": "include/ensmallen_bits/fw/frank_wolfe_impl.hpp", "symbols": ["FrankWolfe::Optimize"]}, {"file": "include/ensmallen_bits/fw/update_classic.hpp", "symbols": ["UpdateClassic::Update"]}, {"file": "include/ensmallen_bits/fw/update_linesearch.hpp", "symbols": ["UpdateLineSearch::Update"]}]}
{"id": "C46", "title": "The Lp-ball linear oracle returns a minimiser over the ball", "statement": "ConstrLpBallSolver returns a point of the (scaled) ball minimising the inner product with the gradient, for p = 1, p = infinity and 1 < p < infinity.", "quantifier": "every gradient vector of every dimension, every positive weight vector", "why_tests_cant": "Optimality over all points of the ball. (False for p > 1 that is not an integer: arma::normalise truncates p; the answer is still in the ball.)", "anchors": [{"file": "include/ensmallen_bits/fw/constr_lpball.hpp", "symbols": ["ConstrLpBallSolver::Optimize"]}]}
{"id": "C47", "title": "Frank-Wolfe gap bound and O(1/k) rate", "statement": "The gap computed by the loop bounds f(x) - f(y) for every feasible y when f is convex with the given gradient, so on tolerance exit the point is tolerance-optimal; with the classic step, after k steps, f(x_k) - f(y) <= 2 L D^2/(k+2) + 2 (f(x_0) - f(y))/((k+1)(k+2)) for every feasible y (the textbook bound without the second term is false: the first step is 2/3, not 1).", "quantifier": "every convex L-smooth function, set of diameter D, and k", "why_tests_cant": "All functions, unbounded k.", "anchors": [{"file": "include/ensmallen_bits/fw/frank_wolfe_impl.hpp", "symbols": ["FrankWolfe::Optimize"]}, {"file": "include/ensmallen_bits/fw/update_classic.hpp", "symbols": ["UpdateClassic::Update"]}]}
{"id": "C48", "title": "Projection onto the L1 ball returns the nearest point of the ball", "statement": "ProjectToL1Ball(v, tau) has L1 norm at most tau and is the closest such point to v.", "quantifier": "every vector and tau > 0", "why_tests_cant": "Optimality over all points. (False: off-by-one in the threshold divisor.)", "anchors": [{"file": "include/ensmallen_bits/fw/proximal/proximal_impl.hpp", "symbols": ["Proximal::ProjectToL1Ball"]}]}
{"id": "C49", "title": "Projection onto the L0 ball keeps the tau largest entries", "statement": "ProjectToL0Ball(v, tau) has at most tau non-zero entries, keeps entries unchanged or zeroes them, every kept entry is at least as large in magnitude as every zeroed one, and no vector with at most tau non-zeros is closer.", "quantifier": "every vector and every tau <= length", "why_tests_cant": "Optimality over all sparse vectors.", "anchors": [{"file": "include/ensmallen_bits/fw/proximal/proximal_impl.hpp", "symbols": ["Proximal::ProjectToL0Ball"]}]}
{"id": "C50", "title": "Augmented Lagrangian gradient is the derivative of its objective", "statement": "AugLagrangianFunction::Gradient is the derivative of AugLagrangianFunction::Evaluate for every multiplier vector and penalty.", "quantifier": "every differentiable objective and constraints, every point, multipliers and penalty", "why_tests_cant": "All functions and points.", "anchors": [{"file": "include/ensmallen_bits/aug_lagrangian/aug_lagrangian_function_impl.hpp", "symbols": ["AugLagrangianFunction::Evaluate", "AugLagrangianFunction::Gradient"]}]}
{"id": "C51", "title": "Augmented Lagrangian outer loop", "statement": "Optimize() returns true only if the last two objectives differ by less than 1000 epsilon and the penalty parameter exceeds 500000; the penalty parameter never falls; in each outer iteration either the multipliers are updated or the penalty is multiplied, never both; at most maxIterations - 1 outer iterations run.", "quantifier": "every inner solver behaviour and constraint function", "why_tests_cant": "Arbitrary inner results, unbounded iterations.", "anchors": [{"file": "include/ensmallen_bits/aug_lagrangian/aug_lagrangian_impl.hpp", "symbols": ["AugLagrangian::Optimize"]}]}
{"id": "C52", "title": "Svec and Smat are mutually inverse isometries", "statement": "Smat(Svec(X)) = X for symmetric X, Svec(Smat(v)) = v, and dot(Svec(X), Svec(Y)) = trace(XY) for symmetric X, Y; SvecIndex is symmetric and a bijection from pairs i >= j onto [0, n(n+1)/2); sparse and dense Svec agree.", "quantifier": "every n and every symmetric matrix", "why_tests_cant": "All dimensions and entries.", "anchors": [{"file": "include/ensmallen_bits/sdp/lin_alg.hpp", "symbols": ["SvecIndex", "Svec", "Smat"]}]}
{"id": "C53", "title": "SymKronId represents the symmetrised product", "statement": "SymKronId(A) * Svec(X) = Svec((A X + X A)/2) for symmetric A, X.", "quantifier": "every n and every symmetric A, X", "why_tests_cant": "All dimensions and entries.", "anchors": [{"file": "include/ensmallen_bits/sdp/lin_alg.hpp", "symbols": ["SymKronId"]}]}
{"id": "C54", "title": "Any: typed retrieval is safe and memory is released exactly once", "statement": "In any program that does not copy holders, As<T>() returns the object stored by the last Set if it was a Set<T> and throws otherwise (also after Clean() and on a holder never set); Clean() releases exactly that object; no object is released twice and nothing undefined happens. Constructing, running and destroying SGD objects, in any order and with any matrix types, releases every instantiated policy exactly once.", "quantifier": "every sequence of operations on any number of holders and SGD objects", "why_tests_cant": "Unbounded operation histories.", "anchors": [{"file": "include/ensmallen_bits/utility/any.hpp", "symbols": ["Any::Set", "Any::As", "Any::Clean"]}, {"file": "include/ensmallen_bits/sgd/sgd_impl.hpp", "symbols": ["SGD::~SGD", "SGD::Optimize"]}]}
{"id": "C55", "title": "Copying an optimizer is memory safe", "statement": "Copying an SGD-type optimizer after use and destroying both copies releases each policy once.", "quantifier": "every history", "why_tests_cant": "Histories of copies. (False: Any is copied shallowly, so the second destructor releases the same object again.)", "anchors": [{"file": "include/ensmallen_bits/utility/any.hpp", "symbols": ["Any"]}, {"file": "include/ensmallen_bits/sgd/sgd.hpp", "symbols": ["SGD::instUpdatePolicy"]}, {"file": "include/ensmallen_bits/sgd/sgd_impl.hpp", "symbols": ["SGD::~SGD"]}]}
{"id": "C56", "title": "Function adapters synthesise consistent methods", "statement": "For a user class providing Evaluate and Gradient (or only EvaluateWithGradient), every synthesised method returns the same objective and gradient as the user's own methods, in the full and the separable case.", "quantifier": "every user function and every point", "why_tests_cant": "All user functions.", "anchors": [{"file": "include/ensmallen_bits/function/add_evaluate.hpp", "symbols": ["AddEvaluate"]}, {"file": "include/ensmallen_bits/function/add_gradient.hpp", "symbols": ["AddGradient"]}, {"file": "include/ensmallen_bits/function/add_evaluate_with_gradient.hpp", "symbols": ["AddEvaluateWithGradient"]}, {"file": "include/ensmallen_bits/function/add_separable_evaluate_with_gradient.hpp", "symbols": ["AddSeparableEvaluateWithGradient"]}]}
{"id": "C57", "title": "Second-moment accumulators stay non-negative and denominators positive", "statement": "For Adam, AMSGrad, Yogi, RMSProp, AdaGrad, AdaDelta, AdaBelief, SMORMS3 the stored second-moment entries are non-negative after any sequence of updates, so every update is defined (no square root of a negative number and no division by zero for epsilon > 0).", "quantifier": "every gradient sequence of every length", "why_tests_cant": "Unbounded histories.", "anchors": [{"file": "include/ensmallen_bits/adam/adam_update.hpp", "symbols": ["AdamUpdate::Policy::Update"]}, {"file": "include/ensmallen_bits/yogi/yogi_update.hpp", "symbols": ["YogiUpdate::Policy::Update"]}, {"file": "include/ensmallen_bits/rmsprop/rmsprop_update.hpp", "symbols": ["RMSPropUpdate::Policy::Update"]}, {"file": "include/ensmallen_bits/ada_grad/ada_grad_update.hpp", "symbols": ["AdaGradUpdate::Policy::Update"]}]}
{"id": "C58", "title": "Bounded steps of adaptive methods", "statement": "AdaGrad never moves a coordinate by more than stepSize per update; AMSGrad's effective per-coordinate denominator never decreases; RMSProp moves a coordinate by at most stepSize/sqrt(1-alpha); AdaBound's per-coordinate rate always lies between its lower and upper bound functions; Adam and AMSGrad with beta1^2 < beta2 move a coordinate by at most stepSize/sqrt((1-beta2)(1-beta1^2/beta2)).", "quantifier": "every gradient sequence", "why_tests_cant": "Unbounded histories.", "anchors": [{"file": "include/ensmallen_bits/ada_grad/ada_grad_update.hpp", "symbols": ["Update"]}, {"file": "include/ensmallen_bits/adam/amsgrad_update.hpp", "symbols": ["Update"]}, {"file": "include/ensmallen_bits/rmsprop/rmsprop_update.hpp", "symbols": ["Update"]}, {"file": "include/ensmallen_bits/ada_bound/ada_bound_update.hpp", "symbols": ["Update"]}]}
{"id": "C59", "title": "Momentum and Nesterov updates unroll to weighted gradient sums", "statement": "After any gradient sequence the momentum displacement is the discounted sum of all gradients; with momentum 0 the momentum update equals plain SGD.", "quantifier": "every gradient sequence", "why_tests_cant": "Unbounded histories.", "anchors": [{"file": "include/ensmallen_bits/sgd/update_policies/momentum_update.hpp", "symbols": ["MomentumUpdate::Policy::Update"]}, {"file": "include/ensmallen_bits/sgd/update_policies/vanilla_update.hpp", "symbols": ["VanillaUpdate::Policy::Update"]}]}
{"id": "C60", "title": "Bias correction makes Adam exact on constant gradients", "statement": "If every gradient equals g, the bias-corrected first and second moments of Adam are exactly g and g^2 at every step, so with epsilon = 0 each step is stepSize * sign(g).", "quantifier": "every g, every beta, every number of steps", "why_tests_cant": "Unbounded histories.", "anchors": [{"file": "include/ensmallen_bits/adam/adam_update.hpp", "symbols": ["AdamUpdate::Policy::Update"]}]}
{"id": "C61", "title": "Lookahead moves to a convex combination", "statement": "With stepSize in [0,1] each Lookahead synchronisation puts the coordinates on the segment between the old coordinates and the inner result; it never performs more than maxIterations synchronisations.", "quantifier": "every inner optimizer result and iteration count", "why_tests_cant": "Arbitrary inner optimizers.", "anchors": [{"file": "include/ensmallen_bits/lookahead/lookahead_impl.hpp", "symbols": ["Lookahead::Optimize"]}]}
{"id": "C62", "title": "SPSA perturbation leaves the coordinates unchanged and returns their objective", "statement": "Each SPSA iteration evaluates at x + c_k d and x - c_k d and moves only by the gain times the gradient estimate; the value returned is the objective of the returned coordinates.", "quantifier": "every perturbation draw and every iteration count", "why_tests_cant": "All random draws.", "anchors": [{"file": "include/ensmallen_bits/spsa/spsa_impl.hpp", "symbols": ["SPSA::Optimize"]}]}
{"id": "C63", "title": "Backtracking line search of big-batch SGD ends at an Armijo point", "statement": "When the backtracking search ends, the step size satisfies the sufficient decrease condition on the batch and is the starting one divided by a power of two; all larger tried steps violated it.", "quantifier": "every objective, gradient and starting step", "why_tests_cant": "Arbitrary objective, unbounded halvings.", "anchors": [{"file": "include/ensmallen_bits/bigbatch_sgd/backtracking_line_search.hpp", "symbols": ["BacktrackingLineSearch::Policy::Backtracking"]}]}
{"id": "C64", "title": "Distance indicators rate fronts as documented", "statement": "IGD and IGD+ are defined exactly for a non-empty reference front and never negative. IGD is zero exactly when every reference point is in the front, IGD+ exactly when every reference point is weakly dominated by a point of the front. Adding points never increases either, order and duplicates do not matter, IGD+ never rates a front worse than one it weakly dominates, and IGD+ is never larger than IGD with p = 1.", "quantifier": "every pair of fronts of any size and dimension", "why_tests_cant": "All fronts; the zero sets are equivalences over a continuous domain.", "anchors": [{"file": "include/ensmallen_bits/utility/indicators/igd.hpp", "symbols": ["IGD::Evaluate"]}, {"file": "include/ensmallen_bits/utility/indicators/igd_plus.hpp", "symbols": ["IGDPlus::Evaluate"]}]}
{"id": "C65", "title": "Bundled problems: Gradient is the derivative of Evaluate", "statement": "For Beale, Booth, Colville, Easom, Goldstein-Price, Himmelblau, Levy N13, McCormick, Rosenbrock, three-hump camel, Wood, GDTest, Schaffer N2, Sphere, Styblinski-Tang, SparseTest, the full gradient of GeneralizedRosenbrock (any dimension) and RosenbrockWood, Gradient() is the Frechet derivative of Evaluate() at every point, and for the separable ones for every batch and visiting order.", "quantifier": "every point (and every batch for separable problems)", "why_tests_cant": "Continuous domain; unit tests compare a few points, or only where the optimiser stops.", "anchors": [{"file": "include/ensmallen_bits/problems/beale_function_impl.hpp", "symbols": ["Evaluate", "Gradient"]}, {"file": "include/ensmallen_bits/problems/booth_function_impl.hpp", "symbols": ["Evaluate", "Gradient"]}, {"file": "include/ensmallen_bits/problems/colville_function_impl.hpp", "symbols": ["Evaluate", "Gradient"]}, {"file": "include/ensmallen_bits/problems/easom_function_impl.hpp", "symbols": ["Evaluate", "Gradient"]}, {"file": "include/ensmallen_bits/problems/goldstein_price_function_impl.hpp", "symbols": ["Evaluate", "Gradient"]}, {"file": "include/ensmallen_bits/problems/himmelblau_function_impl.hpp", "symbols": ["Evaluate", "Gradient"]}, {"file": "include/ensmallen_bits/problems/levy_function_n13_impl.hpp", "symbols": ["Evaluate", "Gradient"]}, {"file": "include/ensmallen_bits/problems/mc_cormick_function_impl.hpp", "symbols": ["Evaluate", "Gradient"]}, {"file": "include/ensmallen_bits/problems/rosenbrock_function_impl.hpp", "symbols": ["Evaluate", "Gradient"]}, {"file": "include/ensmallen_bits/problems/three_hump_camel_function_impl.hpp", "symbols": ["Evaluate", "Gradient"]}, {"file": "include/ensmallen_bits/problems/wood_function_impl.hpp", "symbols": ["Evaluate", "Gradient"]}, {"file": "include/ensmallen_bits/problems/gradient_descent_test_function_impl.hpp", "symbols": ["Evaluate", "Gradient"]}, {"file": "include/ensmallen_bits/problems/schaffer_function_n2_impl.hpp", "symbols": ["Evaluate", "Gradient"]}, {"file": "include/ensmallen_bits/problems/sphere_function_impl.hpp", "symbols": ["Evaluate", "Gradient"]}, {"file": "include/ensmallen_bits/problems/styblinski_tang_function_impl.hpp", "symbols": ["Evaluate", "Gradient"]}, {"file": "include/ensmallen_bits/problems/sparse_test_function_impl.hpp", "symbols": ["Evaluate", "Gradient"]}, {"file": "include/ensmallen_bits/problems/generalized_rosenbrock_function_impl.hpp", "symbols": ["Evaluate", "Gradient"]}, {"file": "include/ensmallen_bits/problems/rosenbrock_wood_function_impl.hpp", "symbols": ["Evaluate", "Gradient"]}]}
{"id": "C66", "title": "Bundled separable problems: batches add up to the full objective", "statement": "For Sphere, Styblinski-Tang, Schwefel, SGDTest, SparseTest and GeneralizedRosenbrock, for every visiting order and every split of the index range into consecutive batches the batch objectives add up to the objective of the whole range; for SparseTest likewise the gradients.", "quantifier": "every point, visiting order and split", "why_tests_cant": "All splits of any number of functions.", "anchors": [{"file": "include/ensmallen_bits/problems/sphere_function_impl.hpp", "symbols": ["Evaluate"]}, {"file": "include/ensmallen_bits/problems/styblinski_tang_function_impl.hpp", "symbols": ["Evaluate"]}, {"file": "include/ensmallen_bits/problems/schwefel_function_impl.hpp", "symbols": ["Evaluate"]}, {"file": "include/ensmallen_bits/problems/sgd_test_function_impl.hpp", "symbols": ["Evaluate"]}, {"file": "include/ensmallen_bits/problems/sparse_test_function_impl.hpp", "symbols": ["Evaluate"]}, {"file": "include/ensmallen_bits/problems/generalized_rosenbrock_function_impl.hpp", "symbols": ["Evaluate"]}]}
{"id": "C67", "title": "Bundled problems: the documented minimum is the minimum", "statement": "For Ackley, Beale, Booth, Bukin N6, Colville, Goldstein-Price, Himmelblau, Levy N13, Matyas, Rosenbrock, Schaffer N2, three-hump camel, Wood, GDTest, TestFuncFW, Sphere, Rastrigin, GeneralizedRosenbrock, RosenbrockWood, SGDTest and SparseTest, the point of GetFinalPoint() attains the value of GetFinalObjective() and no point has a smaller objective.", "quantifier": "every point", "why_tests_cant": "A global minimum over a continuous domain.", "anchors": [{"file": "include/ensmallen_bits/problems/beale_function.hpp", "symbols": ["GetFinalPoint", "GetFinalObjective"]}, {"file": "include/ensmallen_bits/problems/booth_function.hpp", "symbols": ["GetFinalPoint", "GetFinalObjective"]}, {"file": "include/ensmallen_bits/problems/colville_function.hpp", "symbols": ["GetFinalPoint", "GetFinalObjective"]}, {"file": "include/ensmallen_bits/problems/goldstein_price_function.hpp", "symbols": ["GetFinalPoint", "GetFinalObjective"]}, {"file": "include/ensmallen_bits/problems/himmelblau_function.hpp", "symbols": ["GetInitialPoint"]}, {"file": "include/ensmallen_bits/problems/levy_function_n13.hpp", "symbols": ["GetFinalPoint", "GetFinalObjective"]}, {"file": "include/ensmallen_bits/problems/rosenbrock_function.hpp", "symbols": ["GetFinalPoint", "GetFinalObjective"]}, {"file": "include/ensmallen_bits/problems/three_hump_camel_function.hpp", "symbols": ["GetFinalPoint", "GetFinalObjective"]}, {"file": "include/ensmallen_bits/problems/wood_function.hpp", "symbols": ["GetFinalPoint", "GetFinalObjective"]}, {"file": "include/ensmallen_bits/problems/gradient_descent_test_function.hpp", "symbols": ["GetFinalPoint", "GetFinalObjective"]}, {"file": "include/ensmallen_bits/problems/schaffer_function_n2.hpp", "symbols": ["GetFinalPoint", "GetFinalObjective"]}, {"file": "include/ensmallen_bits/problems/sphere_function.hpp", "symbols": ["GetFinalPoint", "GetFinalObjective"]}, {"file": "include/ensmallen_bits/problems/sparse_test_function.hpp", "symbols": ["GetFinalPoint", "GetFinalObjective"]}, {"file": "include/ensmallen_bits/problems/generalized_rosenbrock_function.hpp", "symbols": ["GetFinalPoint", "GetFinalObjective"]}, {"file": "include/ensmallen_bits/problems/rosenbrock_wood_function.hpp", "symbols": ["GetFinalPoint", "GetFinalObjective"]}]}
{"id": "C68", "title": "CNE keeps its elite", "statement": "From one generation to the next the selected elite members are carried over unchanged, so for a deterministic objective the best fitness never worsens; children are complementary mixtures of two distinct elite parents. (The carrying over is false for all but the best member, which Mutate spares.)", "quantifier": "every objective, random draw and generation count", "why_tests_cant": "All random draws, unbounded generations.", "anchors": [{"file": "include/ensmallen_bits/cne/cne_impl.hpp", "symbols": ["CNE::Optimize", "CNE::Reproduce", "CNE::Mutate"]}]}
{"id": "C69", "title": "Frank-Wolfe secant line search returns a point of the segment", "statement": "LineSearch::Optimize ends and leaves in its second argument a point x1 + t (x2 - x1) with 0 <= t <= 1.", "quantifier": "every objective and segment", "why_tests_cant": "Arbitrary objective.", "anchors": [{"file": "include/ensmallen_bits/fw/line_search/line_search_impl.hpp", "symbols": ["LineSearch::Optimize"]}]}
{"id": "C70", "title": "LRSDP objective and gradient agree with the SDP", "statement": "The cached product used by the low-rank SDP function is always the product of the current coordinates, so Evaluate, EvaluateConstraint and Gradient are those of the SDP at X = R R^T.", "quantifier": "every call history", "why_tests_cant": "Histories of calls. (False: the gradient uses the product cached by the last Evaluate.)", "anchors": [{"file": "include/ensmallen_bits/sdp/lrsdp_function_impl.hpp", "symbols": ["EvaluateImpl", "GradientImpl", "EvaluateConstraint"]}]}
{"id": "C71", "title": "QueryFront records every notified front in order", "statement": "After any run the QueryFront callback's vector holds, in order, exactly the fronts it was notified of, each with its objectives; reusing it appends to what is there.", "quantifier": "every sequence of notifications", "why_tests_cant": "Unbounded histories.", "anchors": [{"file": "include/ensmallen_bits/callbacks/query_front.hpp", "symbols": ["QueryFront"]}]}
{"id": "C72", "title": "The SGDR step size stays between zero and the configured step size", "statement": "Whatever the restart parameters, after any number of batches the step size lies in [0, stepSize]; it is the full step size right after a restart and before the schedule starts.", "quantifier": "all restart parameters, batch counts and numbers of steps", "why_tests_cant": "All parameters and unbounded step counts.", "anchors": [{"file": "include/ensmallen_bits/sgdr/cyclical_decay.hpp", "symbols": ["CyclicalDecay::Policy::Update"]}, {"file": "include/ensmallen_bits/sgdr/sgdr_impl.hpp", "symbols": ["SGDR::Optimize"]}]}
{"id": "C73", "title": "SGDR decay starts after the given number of epochs", "statement": "The step size is constant during the first epochRestart epochs.", "quantifier": "all restart parameters and batch sizes", "why_tests_cant": "All parameters. (False: the counter counts batches, not epochs.)", "anchors": [{"file": "include/ensmallen_bits/sgdr/cyclical_decay.hpp", "symbols": ["CyclicalDecay::Policy::Update"]}, {"file": "include/ensmallen_bits/sgdr/sgdr.hpp", "symbols": ["SGDR"]}]}
{"id": "C74", "title": "Simulated annealing: maxIterations = 0 means no limit", "statement": "As documented, an SA optimizer built with maxIterations = 0 runs until the temperature-change criterion stops it.", "quantifier": "every objective and random draw", "why_tests_cant": "Claims about unbounded runs. (False: the limit comparison ends the run at the first iteration.)", "anchors": [{"file": "include/ensmallen_bits/sa/sa_impl.hpp", "symbols": ["SA::Optimize"]}, {"file": "include/ensmallen_bits/sa/sa.hpp", "symbols": ["SA::SA"]}]}
{"id": "C75", "title": "A simulated annealing object can be reused", "statement": "A second Optimize call on the same SA object starts from the configured initial temperature, like a new object.", "quantifier": "every objective, every earlier run", "why_tests_cant": "Histories of calls. (False: the temperature member is overwritten by the run.)", "anchors": [{"file": "include/ensmallen_bits/sa/sa_impl.hpp", "symbols": ["SA::Optimize"]}, {"file": "include/ensmallen_bits/sa/sa.hpp", "symbols": ["SA::Temperature"]}]}
{"id": "C76", "title": "DE crossover applies to every coordinate", "statement": "Every coordinate of a trial member is taken either from the mutant or from the member, independently per coordinate, for matrices of any shape.", "quantifier": "every member, mutant and random stream", "why_tests_cant": "All shapes and random streams. (False: only the first n_rows elements are crossed.)", "anchors": [{"file": "include/ensmallen_bits/de/de_impl.hpp", "symbols": ["DE::Optimize"]}]}
{"id": "C77", "title": "CNE returns normally for every accepted configuration", "statement": "Whenever the arguments pass the checks, Optimize returns coordinates and objective, also when a callback stops the run early or maxGenerations is 0.", "quantifier": "every objective, callback and random draw", "why_tests_cant": "Callback behaviours. (False: with no generation done an empty index vector is read.)", "anchors": [{"file": "include/ensmallen_bits/cne/cne_impl.hpp", "symbols": ["CNE::Optimize"]}]}
{"id": "C78", "title": "CNE rejects selection percentages that leave fewer than two parents", "statement": "A selection percentage for which fewer than two elite members remain is rejected with an exception.", "quantifier": "every population size and percentage", "why_tests_cant": "Unbounded sizes. (False: with zero elite members and an odd population the count wraps around.)", "anchors": [{"file": "include/ensmallen_bits/cne/cne_impl.hpp", "symbols": ["CNE::Optimize"]}]}
{"id": "C79", "title": "PSO returns a consistent result for every accepted configuration", "statement": "PSOType::Optimize always returns a value and the coordinates attaining it, whatever the callbacks, horizon size and objective values.", "quantifier": "every objective, callback and configuration", "why_tests_cant": "Callback behaviours and special values. (False: a stop during the initial evaluation returns the maximum double, horizonSize = 0 reads an empty queue, and a particle whose first value is NaN never improves.)", "anchors": [{"file": "include/ensmallen_bits/pso/pso_impl.hpp", "symbols": ["PSOType::Optimize"]}]}
{"id": "C80", "title": "PSO iteration count and stopping reason", "statement": "A PSO run stops because a callback asked to, because maxIterations is reached, or because the improvement over the horizon is at most the tolerance; with a negative tolerance and no stop request it performs exactly maxIterations iterations.", "quantifier": "every objective, random stream and callback", "why_tests_cant": "Unbounded iteration counts.", "anchors": [{"file": "include/ensmallen_bits/pso/pso_impl.hpp", "symbols": ["PSOType::Optimize"]}]}
{"id": "C81", "title": "LBest PSO constriction factor comes from the optimizer's own exploration factors", "statement": "The velocity update of an LBestPSO object uses the constriction factor of that object's exploitation and exploration factors.", "quantifier": "every sequence of objects used in a process", "why_tests_cant": "Histories of several objects. (False: phi is a function-level static, computed once per process.)", "anchors": [{"file": "include/ensmallen_bits/pso/update_policies/lbest_update.hpp", "symbols": ["LBestUpdate::Policy::Initialize"]}]}
{"id": "C83", "title": "CMA-ES stopping: generation limit and patience", "statement": "CMA-ES performs at most maxIterations - 1 generations, and if it stops on the tolerance criterion then the patience number of consecutive generations had changes within the tolerance.", "quantifier": "every objective, random stream and callback", "why_tests_cant": "Unbounded runs.", "anchors": [{"file": "include/ensmallen_bits/cmaes/cmaes_impl.hpp", "symbols": ["CMAES::Optimize"]}]}
{"id": "C84", "title": "CMA-ES result is consistent with any selection policy", "statement": "Whatever the selection policy, the returned value is the objective of the returned coordinates.", "quantifier": "every selection policy provided by the library", "why_tests_cant": "All random picks. (False: RandomSelection returns an estimate from a sample.)", "anchors": [{"file": "include/ensmallen_bits/cmaes/random_selection.hpp", "symbols": ["RandomSelection::Select"]}, {"file": "include/ensmallen_bits/cmaes/cmaes_impl.hpp", "symbols": ["CMAES::Optimize"]}]}
{"id": "C85", "title": "POP_CMAES honours maxFunctionEvaluations", "statement": "Restarts stop early only when the number of function evaluations made reaches maxFunctionEvaluations.", "quantifier": "every sequence of inner runs", "why_tests_cant": "Unbounded number of restarts. (False: the inner counter is cumulative and summed again after each restart.)", "anchors": [{"file": "include/ensmallen_bits/cmaes/pop_cmaes_impl.hpp", "symbols": ["POP_CMAES::Optimize"]}]}
{"id": "C86", "title": "A stop request ends a POP_CMAES run", "statement": "After a callback asks to stop, no further inner run is started.", "quantifier": "every sequence of inner runs and callback behaviours", "why_tests_cant": "All callback behaviours. (False: it only ends the inner run.)", "anchors": [{"file": "include/ensmallen_bits/cmaes/pop_cmaes_impl.hpp", "symbols": ["POP_CMAES::Optimize"]}]}
{"id": "C87", "title": "POP_CMAES returns the best candidate evaluated", "statement": "The returned objective is no larger than any objective value reported to the callbacks during the run.", "quantifier": "every sequence of inner runs", "why_tests_cant": "Unbounded runs. (False: candidates of a run whose result is no new best are forgotten.)", "anchors": [{"file": "include/ensmallen_bits/cmaes/pop_cmaes_impl.hpp", "symbols": ["POP_CMAES::Optimize"]}]}
{"id": "C88", "title": "Evaluating a population calls each objective once per individual", "statement": "EvaluateObjectives of NSGA2, AGEMOEA and MOEA/D calls objective k exactly once for every individual.", "quantifier": "every population and every number of objectives", "why_tests_cant": "Needs counting over arbitrary population sizes and objective counts. (False: the recursion over objectives sits inside the loop over individuals, so objective k is called n^(k+1) times.)", "anchors": [{"file": "include/ensmallen_bits/nsga2/nsga2_impl.hpp", "symbols": ["NSGA2::EvaluateObjectives"]}, {"file": "include/ensmallen_bits/agemoea/agemoea_impl.hpp", "symbols": ["AGEMOEA::EvaluateObjectives"]}, {"file": "include/ensmallen_bits/moead/moead_impl.hpp", "symbols": ["MOEAD::EvaluateObjectives"]}]}
{"id": "C89", "title": "Multi-objective Optimize returns the smallest objective sum", "statement": "The value returned by NSGA2, AGEMOEA and MOEA/D is the smallest sum of objectives over the final population.", "quantifier": "every objective tuple, random stream and generation count", "why_tests_cant": "All runs. (False: NSGA2 includes zero entries of never-evaluated children, AGEMOEA returns left-over normalised values, MOEA/D only looks at the first numObjectives members and reads out of bounds if there are fewer members.)", "anchors": [{"file": "include/ensmallen_bits/nsga2/nsga2_impl.hpp", "symbols": ["NSGA2::Optimize"]}, {"file": "include/ensmallen_bits/agemoea/agemoea_impl.hpp", "symbols": ["AGEMOEA::Optimize"]}, {"file": "include/ensmallen_bits/moead/moead_impl.hpp", "symbols": ["MOEAD::Optimize"]}]}
{"id": "C90", "title": "NSGA2 crowding distance prefers the extremes of a front", "statement": "Within a front, for every objective some member attaining its smallest and some member attaining its largest value receive at least the maximal representable distance, a member strictly between the extremes in every objective receives a distance between 0 and the number of objectives, and so the extreme member is preferred by the crowding operator.", "quantifier": "every front and every objective values", "why_tests_cant": "Arbitrary fronts.", "anchors": [{"file": "include/ensmallen_bits/nsga2/nsga2_impl.hpp", "symbols": ["NSGA2::CrowdingDistanceAssignment", "NSGA2::CrowdingOperator"]}]}
{"id": "C91", "title": "NSGA2 elitism", "statement": "No individual that survives a generation is dominated by an individual that was dropped in that generation.", "quantifier": "every generation of every run", "why_tests_cant": "All runs. (False: children are ranked without having been evaluated.)", "anchors": [{"file": "include/ensmallen_bits/nsga2/nsga2_impl.hpp", "symbols": ["NSGA2::Optimize"]}]}
{"id": "C92", "title": "NSGA2 returns normally for every accepted configuration", "statement": "If NSGA2::Optimize does not throw, it performs no out-of-range access and returns a Pareto set, a Pareto front and an iterate.", "quantifier": "every accepted population size, generation count, objective tuple and random stream", "why_tests_cant": "All runs and sizes. (False for maxGenerations = 0 and for populationSize = 0; proved otherwise for at least four members.)", "anchors": [{"file": "include/ensmallen_bits/nsga2/nsga2_impl.hpp", "symbols": ["NSGA2::Optimize"]}]}
{"id": "C93", "title": "MOEA/D Pareto set is mutually non-dominated", "statement": "No element of ParetoSet() returned by MOEA/D is dominated by another element.", "quantifier": "every run", "why_tests_cant": "All runs. (False: the whole final population is reported.)", "anchors": [{"file": "include/ensmallen_bits/moead/moead_impl.hpp", "symbols": ["MOEAD::Optimize"]}]}
{"id": "C94", "title": "AGEMOEA Pareto set and front correspond", "statement": "After AGEMOEA::Optimize the i-th element of ParetoFront() holds the objectives of the i-th element of ParetoSet(), both have one entry per member of the final population, and the final iterate belongs to ParetoSet().", "quantifier": "every run", "why_tests_cant": "All runs.", "anchors": [{"file": "include/ensmallen_bits/agemoea/agemoea_impl.hpp", "symbols": ["AGEMOEA::Optimize"]}]}
{"id": "C95", "title": "MOEA/D returns for every accepted configuration; Pareto set and front correspond", "statement": "If the configuration is accepted and the population has at least as many members as there are objectives, MOEA/D makes no out-of-range access; the i-th element of ParetoFront() holds the objectives of the i-th element of ParetoSet() and the final iterate is the first element of ParetoSet().", "quantifier": "every objective tuple, random stream, decomposition, callback and generation count", "why_tests_cant": "All runs.", "anchors": [{"file": "include/ensmallen_bits/moead/moead_impl.hpp", "symbols": ["MOEAD::Optimize", "MOEAD::Mating"]}]}
{"id": "C96", "title": "MOEA/D with weighted averages never worsens a subproblem", "statement": "With the WeightedAverage decomposition the weighted sum of every subproblem's member after any number of generations is at most the weighted sum of its initial member.", "quantifier": "every objective tuple, weights, random stream and generation count", "why_tests_cant": "Unbounded runs.", "anchors": [{"file": "include/ensmallen_bits/moead/moead_impl.hpp", "symbols": ["MOEAD::Optimize"]}, {"file": "include/ensmallen_bits/moead/decomposition_policies/weighted_decomposition.hpp", "symbols": ["WeightedAverage::Apply"]}]}
{"id": "C97", "title": "MOEA/D mating picks two different valid parents from the neighbourhood", "statement": "Mating returns two different indices of the population; with neighbour sampling both belong to the neighbourhood of the subproblem.", "quantifier": "every pair of random draws and every neighbourhood", "why_tests_cant": "All draws. (The second part is false: equal draws are separated by incrementing or decrementing the index.)", "anchors": [{"file": "include/ensmallen_bits/moead/moead_impl.hpp", "symbols": ["MOEAD::Mating"]}]}
{"id": "C98", "title": "MOEA/D neighbourhoods are the nearest other weights", "statement": "The neighbourhood of a weight vector consists of the neighborSize nearest weight vectors other than itself.", "quantifier": "every weight matrix", "why_tests_cant": "Arbitrary weights. (False with duplicate weights; proved when the weight differs from all others.)", "anchors": [{"file": "include/ensmallen_bits/moead/moead_impl.hpp", "symbols": ["MOEAD::Optimize"]}]}
{"id": "C99", "title": "L-BFGS returns the objective of the returned coordinates", "statement": "The value returned by L_BFGS::Optimize is the objective at the coordinates it leaves in iterate.", "quantifier": "every deterministic objective, setting of the line-search parameters and callback list", "why_tests_cant": "All runs. (False: the line search moves to the best trial but returns the value of the last one. Proved: the objective at the returned coordinates is at most the returned value, or that value is NaN.)", "anchors": [{"file": "include/ensmallen_bits/lbfgs/lbfgs_impl.hpp", "symbols": ["L_BFGS::LineSearch", "L_BFGS::Optimize"]}]}
{"id": "C100", "title": "L-BFGS makes progress in every iteration", "statement": "The objective strictly decreases from iteration to iteration, so a run never ends worse than it started; a run makes at most maxIterations iterations (if not 0) and at most max(1, maxLineSearchTrials) evaluations in each.", "quantifier": "every deterministic objective and parameter setting", "why_tests_cant": "All runs. (The last iteration may increase the objective; proved for the others.)", "anchors": [{"file": "include/ensmallen_bits/lbfgs/lbfgs_impl.hpp", "symbols": ["L_BFGS::LineSearch", "L_BFGS::Optimize"]}]}
{"id": "C101", "title": "An L_BFGS object can be used again after a callback stopped it", "statement": "After a run ended by a callback, a later Optimize call on the same object behaves like on a new object.", "quantifier": "every objective, callback and pair of starting points", "why_tests_cant": "Sequences of calls. (False: the member terminate is never reset, so the later call makes no iteration.)", "anchors": [{"file": "include/ensmallen_bits/lbfgs/lbfgs_impl.hpp", "symbols": ["L_BFGS::Optimize"]}, {"file": "include/ensmallen_bits/lbfgs/lbfgs.hpp", "symbols": ["L_BFGS::terminate"]}]}
{"id": "C102", "title": "The L-BFGS line search ends, and a regular end satisfies the Wolfe conditions", "statement": "LineSearch makes at most max(1, maxLineSearchTrials) evaluations. If it ends because no Wolfe test failed, the last trial satisfies the sufficient-decrease condition and both curvature conditions.", "quantifier": "every objective, direction and parameter setting", "why_tests_cant": "All trial sequences.", "anchors": [{"file": "include/ensmallen_bits/lbfgs/lbfgs_impl.hpp", "symbols": ["L_BFGS::LineSearch"]}]}
{"id": "C103", "title": "L-BFGS builds its pairs from gradients at its iterates", "statement": "The gradient L-BFGS keeps after an iteration, and uses for the next direction and the stored pair, is the gradient of the objective at the new coordinates.", "quantifier": "every objective and parameter setting", "why_tests_cant": "All runs. (False when the best trial of the line search is not the last; proved when it is.)", "anchors": [{"file": "include/ensmallen_bits/lbfgs/lbfgs_impl.hpp", "symbols": ["L_BFGS::LineSearch", "L_BFGS::UpdateBasisSet"]}]}
{"id": "C104", "title": "Parallel SGD iteration count and returned value", "statement": "ParallelSGD makes maxIterations iterations unless it converges, diverges or is stopped, and returns the objective at the final point.", "quantifier": "every function, iteration limit, thread schedule and callback list", "why_tests_cant": "All runs. (False: one iteration less is made, and the value returned at the limit is the objective before the last round. Proved: the exact number of rounds, and the value on the other exits.)", "anchors": [{"file": "include/ensmallen_bits/parallel_sgd/parallel_sgd_impl.hpp", "symbols": ["ParallelSGD::Optimize"]}]}
{"id": "C105", "title": "ExponentialBackoff step sizes", "statement": "With beta in (0, 1) the step size stays positive, never increases, equals step * beta^r after r cutoffs, and the sum of all step sizes is bounded whatever the number of epochs.", "quantifier": "every number of epochs, initial step, beta and first cutoff", "why_tests_cant": "Unbounded number of epochs.", "anchors": [{"file": "include/ensmallen_bits/parallel_sgd/decay_policies/exponential_backoff.hpp", "symbols": ["ExponentialBackoff::StepSize"]}]}
{"id": "C106", "title": "Variance-reduced methods respect the protocol and return the objective at the final point", "statement": "SVRG, SARAH and Katyusha return after at most maxIterations epochs, only ask for batches inside 0..NumFunctions(), take no step after a callback has asked to stop, and return the full objective at the coordinates handed back.", "quantifier": "every function, batch size, policy, callback list and iteration limit", "why_tests_cant": "All runs. (The value is false without exactObjective, and for Katyusha also on the tolerance exit.)", "anchors": [{"file": "include/ensmallen_bits/svrg/svrg_impl.hpp", "symbols": ["SVRGType::Optimize"]}, {"file": "include/ensmallen_bits/sarah/sarah_impl.hpp", "symbols": ["SARAHType::Optimize"]}, {"file": "include/ensmallen_bits/katyusha/katyusha_impl.hpp", "symbols": ["KatyushaType::Optimize"]}]}
{"id": "C107", "title": "Barzilai-Borwein step sizes stay positive", "statement": "On a convex objective BarzilaiBorweinDecay keeps the SVRG step size positive and at most maxStepSize.", "quantifier": "every convex objective, every step size", "why_tests_cant": "All objectives. (False: the sign of the inner product is not taken into account as the gradient difference is between different snapshots, and the bound is not applied.)", "anchors": [{"file": "include/ensmallen_bits/svrg/barzilai_borwein_decay.hpp", "symbols": ["BarzilaiBorweinDecay::Policy::Update"]}]}
{"id": "C108", "title": "SARAH with full batches follows the gradient", "statement": "When every batch contains all functions, each direction SARAH steps along is the full gradient at the current point.", "quantifier": "every separable objective, every number of inner iterations", "why_tests_cant": "All objectives. (False: the first inner pass does not update the estimator, so a constant error remains for the whole epoch; the exact error is proved.)", "anchors": [{"file": "include/ensmallen_bits/sarah/sarah_impl.hpp", "symbols": ["SARAHType::Optimize"]}, {"file": "include/ensmallen_bits/sarah/sarah_update.hpp", "symbols": ["SARAHUpdate::Update"]}]}
{"id": "C109", "title": "SARAH notifies every step", "statement": "Every change of the iterate by SARAH or SARAH+ is followed by a StepTaken callback.", "quantifier": "every run", "why_tests_cant": "All runs. (False: neither the full-gradient step nor the last SARAH+ step of an epoch is notified.)", "anchors": [{"file": "include/ensmallen_bits/sarah/sarah_impl.hpp", "symbols": ["SARAHType::Optimize"]}, {"file": "include/ensmallen_bits/sarah/sarah_plus_update.hpp", "symbols": ["SARAHPlusUpdate::Update"]}]}
{"id": "C110", "title": "Katyusha's snapshot is a weighted average and the minimiser is a fixed point", "statement": "The weights Katyusha applies to the inner iterates to form the next snapshot sum to one; so an epoch started at a minimiser of all components leaves it there.", "quantifier": "every ratio, every number of inner passes", "why_tests_cant": "All parameters. (False for every parameter choice: the normaliser is too large, so snapshots are pulled toward the origin.)", "anchors": [{"file": "include/ensmallen_bits/katyusha/katyusha_impl.hpp", "symbols": ["KatyushaType::Optimize"]}]}
{"id": "C111", "title": "Katyusha's full gradient is taken at the snapshot", "statement": "In every epoch the full gradient is the average of all gradients at the snapshot.", "quantifier": "every separable objective, every epoch and batch size", "why_tests_cant": "All epochs. (False from the second epoch on: the first batch is evaluated at the iterate.)", "anchors": [{"file": "include/ensmallen_bits/katyusha/katyusha_impl.hpp", "symbols": ["KatyushaType::Optimize"]}]}
{"id": "C112", "title": "Variance-reduced optimizers can be reused", "statement": "Calling Optimize again on the same SVRG, SARAH or Katyusha object with another function behaves like calling it on a fresh object with the same settings.", "quantifier": "every pair of functions", "why_tests_cant": "All pairs of calls. (False for the default innerIterations = 0, which the first call overwrites for good.)", "anchors": [{"file": "include/ensmallen_bits/svrg/svrg_impl.hpp", "symbols": ["SVRGType::Optimize"]}, {"file": "include/ensmallen_bits/sarah/sarah_impl.hpp", "symbols": ["SARAHType::Optimize"]}, {"file": "include/ensmallen_bits/katyusha/katyusha_impl.hpp", "symbols": ["KatyushaType::Optimize"]}]}
{"id": "C113", "title": "An IQN pass visits every batch exactly once", "statement": "Each pass of IQN terminates and visits every batch exactly once; the batches partition the functions.", "quantifier": "every number of functions, every batch size", "why_tests_cant": "All sizes; the wrap-around loop is easy to get wrong by one.", "anchors": [{"file": "include/ensmallen_bits/iqn/iqn_impl.hpp", "symbols": ["IQN::Optimize"]}]}
{"id": "C114", "title": "IQN secant equation and aggregated Newton step", "statement": "After visiting a batch its Hessian approximation maps the step to the gradient change; with stepSize 1 the new iterate is the stationary point of the aggregated quadratic model.", "quantifier": "every Hessian approximation, step, gradient change with nonzero denominators", "why_tests_cant": "Algebraic identity over all matrices.", "anchors": [{"file": "include/ensmallen_bits/iqn/iqn_impl.hpp", "symbols": ["IQN::Optimize"]}]}
{"id": "C115", "title": "IQN run length, stop requests and returned value", "statement": "IQN makes maxIterations passes unless it converges or a callback stops it, takes no step after a stop request, and returns the objective at the final point.", "quantifier": "every function, batch size, callback list", "why_tests_cant": "All runs. (False: one pass less, steps go on to the end of the pass after a stop request, and the value is the average over functions, or 0 when no pass was made. The exact behaviour is proved.)", "anchors": [{"file": "include/ensmallen_bits/iqn/iqn_impl.hpp", "symbols": ["IQN::Optimize"]}]}
{"id": "C116", "title": "IQN accepts any iterate shape", "statement": "IQN works for matrices and vectors of any shape.", "quantifier": "every number of rows and columns", "why_tests_cant": "All shapes. (False: u.t() - vectorise(g) is well-shaped exactly for row vectors.)", "anchors": [{"file": "include/ensmallen_bits/iqn/iqn_impl.hpp", "symbols": ["IQN::Optimize"]}]}
{"id": "C117", "title": "Frank-Wolfe line search does not increase the objective", "statement": "The point found by LineSearch::Optimize is no worse than the starting end of the segment.", "quantifier": "every differentiable objective and segment", "why_tests_cant": "Arbitrary objective. (False in general: the secant iteration looks only at derivatives.)", "anchors": [{"file": "include/ensmallen_bits/fw/line_search/line_search_impl.hpp", "symbols": ["LineSearch::Optimize"]}]}
{"id": "C118", "title": "Frank-Wolfe run length, returned value and stop requests", "statement": "FrankWolfe makes at most maxIterations iterations, returns the objective at the coordinates it leaves, and takes no step after a stop request.", "quantifier": "every objective, oracle, update rule and callback list", "why_tests_cant": "All runs. (False: maxIterations - 1 iterations; at the limit the value is that of the point before the last step; a stop request of EvaluateWithGradient is followed by a step.)", "anchors": [{"file": "include/ensmallen_bits/fw/frank_wolfe_impl.hpp", "symbols": ["FrankWolfe::Optimize"]}]}
{"id": "C119", "title": "The Lp-ball oracle on matrices", "statement": "For coordinates with several columns ConstrLpBallSolver (1 < p < infinity) returns a point of the ball.", "quantifier": "every matrix", "why_tests_cant": "All shapes. (False: every column is normalised on its own.)", "anchors": [{"file": "include/ensmallen_bits/fw/constr_lpball.hpp", "symbols": ["ConstrLpBallSolver::Optimize"]}]}
{"id": "C120", "title": "The structured-group oracle returns the best atom of all groups", "statement": "ConstrStructGroupSolver picks the group with the largest dual norm and returns an atom of it minimising the inner product with the gradient over the unit balls of all groups.", "quantifier": "every list of groups (overlapping or not), every gradient, p >= 1", "why_tests_cant": "Optimality over all groups. (False when the conjugate exponent is not an integer: arma::norm truncates it.)", "anchors": [{"file": "include/ensmallen_bits/fw/constr_structure_group.hpp", "symbols": ["ConstrStructGroupSolver::Optimize", "GroupLpBall::DualNorm", "GroupLpBall::OptimalFromGroup"]}]}
{"id": "C121", "title": "Augmented Lagrangian honours stop requests", "statement": "After a callback of the outer loop requests a stop, the inner solver is not called again.", "quantifier": "every function, inner solver and callback list", "why_tests_cant": "All runs.", "anchors": [{"file": "include/ensmallen_bits/aug_lagrangian/aug_lagrangian_impl.hpp", "symbols": ["AugLagrangian::Optimize"]}]}
{"id": "C122", "title": "An AugLagrangian object can be used again", "statement": "A run of AugLagrangian does not depend on how an earlier run of the same object ended.", "quantifier": "every function and history", "why_tests_cant": "Histories of calls. (False: the member terminate is never reset.)", "anchors": [{"file": "include/ensmallen_bits/aug_lagrangian/aug_lagrangian_impl.hpp", "symbols": ["AugLagrangian::Optimize"]}, {"file": "include/ensmallen_bits/aug_lagrangian/aug_lagrangian.hpp", "symbols": ["AugLagrangian"]}]}
{"id": "C123", "title": "AugLagrangian success means the constraints hold", "statement": "When AugLagrangian::Optimize returns true the constraints are satisfied up to a tolerance.", "quantifier": "every function and constraints", "why_tests_cant": "All functions. (False: only the change of the objective and the penalty parameter are tested.)", "anchors": [{"file": "include/ensmallen_bits/aug_lagrangian/aug_lagrangian_impl.hpp", "symbols": ["AugLagrangian::Optimize"]}]}
{"id": "C124", "title": "EvaluateConstraint callbacks are told the constraint value", "statement": "The value passed to the EvaluateConstraint callback is the value of the constraint.", "quantifier": "every function and callback", "why_tests_cant": "All runs. (False: the penalty loops pass the square.)", "anchors": [{"file": "include/ensmallen_bits/aug_lagrangian/aug_lagrangian_impl.hpp", "symbols": ["AugLagrangian::Optimize"]}]}
{"id": "C125", "title": "Multiplier estimates and exactness of the augmented Lagrangian", "statement": "After a multiplier update the gradient of the Lagrangian at the coordinates is the gradient of the augmented Lagrangian the inner solver worked on; a feasible minimiser of the augmented Lagrangian solves the constrained problem.", "quantifier": "every function, constraints, multipliers, penalty parameter", "why_tests_cant": "All functions and points.", "anchors": [{"file": "include/ensmallen_bits/aug_lagrangian/aug_lagrangian_function_impl.hpp", "symbols": ["AugLagrangianFunction::Evaluate", "AugLagrangianFunction::Gradient"]}, {"file": "include/ensmallen_bits/aug_lagrangian/aug_lagrangian_impl.hpp", "symbols": ["AugLagrangian::Optimize"]}]}
{"id": "C126", "title": "Multipliers of the wrong size are replaced by defaults", "statement": "Optimize() without initial multipliers uses the defaults unless the stored multipliers have the right size.", "quantifier": "every stored vector and function", "why_tests_cant": "All histories. (False: only emptiness is tested; too few multipliers are read out of bounds.)", "anchors": [{"file": "include/ensmallen_bits/aug_lagrangian/aug_lagrangian_impl.hpp", "symbols": ["AugLagrangian::Optimize"]}]}
{"id": "C127", "title": "Replacing what a holder holds releases the old object", "statement": "Once every holder of a program has been cleaned, every object ever stored has been released.", "quantifier": "every sequence of Set, As and Clean", "why_tests_cant": "Unbounded histories. (False: Set on a full holder forgets the old object; every caller has to Clean() first.)", "anchors": [{"file": "include/ensmallen_bits/utility/any.hpp", "symbols": ["Any::Set", "Any::Clean"]}]}
{"id": "C128", "title": "A method the user wrote is the one that is called", "statement": "If the user's class has a method, the wrapped function calls it rather than a synthesised one, whatever its declaration form (const, non-const, static); a class with static methods is accepted wherever documentation says it may be.", "quantifier": "every combination of declaration forms", "why_tests_cant": "Overload resolution over all declaration forms. (False for some: see the refutations; holds when the existing methods are const or non-const members.)", "anchors": [{"file": "include/ensmallen_bits/function/add_evaluate.hpp", "symbols": ["AddEvaluate"]}, {"file": "include/ensmallen_bits/function/add_gradient.hpp", "symbols": ["AddGradient"]}, {"file": "include/ensmallen_bits/function/traits.hpp", "symbols": ["traits"]}, {"file": "include/ensmallen_bits/function.hpp", "symbols": ["Function"]}]}
{"id": "C129", "title": "Zero gradients do not move the iterate", "statement": "A freshly constructed update policy leaves the iterate unchanged when all gradients are zero, for any step sizes.", "quantifier": "every number of updates, every start and step size", "why_tests_cant": "Unbounded histories. (False for DemonSGD and DemonAdam, which multiply the iterate by the decayed momentum.)", "anchors": [{"file": "include/ensmallen_bits/adam/adam_update.hpp", "symbols": ["AdamUpdate::Policy::Update"]}, {"file": "include/ensmallen_bits/demon_sgd/demon_sgd_update.hpp", "symbols": ["DemonSGDUpdate::Policy::Update"]}, {"file": "include/ensmallen_bits/demon_adam/demon_adam_update.hpp", "symbols": ["DemonAdamUpdate::Policy::Update"]}]}
{"id": "C130", "title": "Adaptive methods are invariant under rescaling of the objective", "statement": "Multiplying every gradient and epsilon by the same positive constant does not change the trajectory of Adam, AMSGrad, AdaMax, Nadam, OptimisticAdam, QHAdam, Yogi, RMSProp and AdaGrad.", "quantifier": "every gradient sequence and every positive constant", "why_tests_cant": "All histories and constants.", "anchors": [{"file": "include/ensmallen_bits/adam/adam_update.hpp", "symbols": ["Update"]}, {"file": "include/ensmallen_bits/adam/amsgrad_update.hpp", "symbols": ["Update"]}, {"file": "include/ensmallen_bits/yogi/yogi_update.hpp", "symbols": ["Update"]}, {"file": "include/ensmallen_bits/rmsprop/rmsprop_update.hpp", "symbols": ["Update"]}, {"file": "include/ensmallen_bits/ada_grad/ada_grad_update.hpp", "symbols": ["Update"]}, {"file": "include/ensmallen_bits/qhadam/qhadam_update.hpp", "symbols": ["Update"]}]}
{"id": "C131", "title": "Documented equivalences between update policies", "statement": "QHAdam with v1 = v2 = 1 is Adam, with v1 = 0 and v2 = 1 RMSProp, with v1 = beta1 and v2 = 1 Nadam (as doc/optimizers.md says); Padam with partial 1/2 is AMSGrad.", "quantifier": "every gradient sequence", "why_tests_cant": "Unbounded histories. (The first two hold for epsilon = 0 up to bias correction only; the third is false.)", "anchors": [{"file": "include/ensmallen_bits/qhadam/qhadam_update.hpp", "symbols": ["QHAdamUpdate::Policy::Update"]}, {"file": "include/ensmallen_bits/padam/padam_update.hpp", "symbols": ["PadamUpdate::Policy::Update"]}]}
{"id": "C132", "title": "WNGrad steps are bounded and its denominator only grows", "statement": "From any positive b, after any updates b has not decreased, b squared has grown by at least twice the sum of the squared scaled gradient norms, and no step is longer than 1/2.", "quantifier": "every sequence of step sizes and gradients, every dimension", "why_tests_cant": "Unbounded histories.", "anchors": [{"file": "include/ensmallen_bits/wn_grad/wn_grad_update.hpp", "symbols": ["WNGradUpdate::Policy::Update"]}]}
{"id": "C133", "title": "resetPolicy makes Optimize calls independent", "statement": "With resetPolicy = true (the default; documented as 'parameters are reset before every Optimize call') an Optimize() after another one moves the iterate exactly as on a fresh object.", "quantifier": "every pair of runs", "why_tests_cant": "Histories of calls. (False for WNGrad, DemonSGD and SWATS, which keep state in the parent object.)", "anchors": [{"file": "include/ensmallen_bits/sgd/sgd_impl.hpp", "symbols": ["SGD::Optimize"]}, {"file": "include/ensmallen_bits/wn_grad/wn_grad_update.hpp", "symbols": ["WNGradUpdate::b"]}, {"file": "include/ensmallen_bits/swats/swats_update.hpp", "symbols": ["SWATSUpdate::phaseSGD"]}, {"file": "include/ensmallen_bits/demon_sgd/demon_sgd_update.hpp", "symbols": ["DemonSGDUpdate::t"]}]}
{"id": "C134", "title": "The DEMON momentum decays from its initial value to zero", "statement": "For every number of updates the momentum coefficient of DemonSGD/DemonAdam lies in [0, momentum], is momentum at the first update and 0 at update momentumIterations.", "quantifier": "every number of updates", "why_tests_cant": "Unbounded. (True up to momentumIterations; false beyond, where it is negative or undefined. As it multiplies the iterate, update number momentumIterations forgets the iterate.)", "anchors": [{"file": "include/ensmallen_bits/demon_sgd/demon_sgd_update.hpp", "symbols": ["DemonSGDUpdate::Policy::Update"]}, {"file": "include/ensmallen_bits/demon_adam/demon_adam_update.hpp", "symbols": ["DemonAdamUpdate::Policy::Update"]}]}
{"id": "C135", "title": "FTML updates are determined by their inputs and have a closed form", "statement": "Each FTML update is a gradient step with a bias-corrected root-mean-square denominator, determined by the gradients, step sizes and start.", "quantifier": "every gradient sequence", "why_tests_cant": "Unbounded. (The iteration counter is not initialised by the constructor, so the result depends on an indeterminate value.)", "anchors": [{"file": "include/ensmallen_bits/ftml/ftml_update.hpp", "symbols": ["FTMLUpdate::Policy::Policy", "FTMLUpdate::Policy::Update"]}]}
{"id": "C136", "title": "Gradient clipping only clips", "statement": "GradientClipping runs the wrapped policy on gradients that lie in [minGradient, maxGradient], are unchanged where they already did, and are the nearer bound elsewhere.", "quantifier": "every wrapped policy and gradient sequence", "why_tests_cant": "All policies and histories.", "anchors": [{"file": "include/ensmallen_bits/sgd/update_policies/gradient_clipping.hpp", "symbols": ["GradientClipping::Policy::Update"]}]}
{"id": "C137", "title": "OptimisticAdam displacement telescopes", "statement": "With constant step size the displacement after n updates is minus the step size times the sum of the n Adam directions plus the last direction once more.", "quantifier": "every gradient sequence", "why_tests_cant": "Unbounded histories.", "anchors": [{"file": "include/ensmallen_bits/adam/optimisticadam_update.hpp", "symbols": ["OptimisticAdamUpdate::Policy::Update"]}]}
{"id": "C138", "title": "The SGD phase of SWATS", "statement": "Once SWATS has switched it stays in the SGD phase with the positive rate it had and moves against the discounted sum of the gradients seen since.", "quantifier": "every gradient sequence after the switch", "why_tests_cant": "Unbounded histories. (The rate can be negative; the rest holds.)", "anchors": [{"file": "include/ensmallen_bits/swats/swats_update.hpp", "symbols": ["SWATSUpdate::Policy::Update"]}]}
{"id": "C139", "title": "SPSA stopping rules", "statement": "SPSA stops within tolerance only when two successive objectives are close, and maxIterations = 0 means no limit, as documented.", "quantifier": "every objective, draw and parameter", "why_tests_cant": "All runs. (Both false: the first comparison is with a zero that is no objective, and 0 means no iteration at all.)", "anchors": [{"file": "include/ensmallen_bits/spsa/spsa_impl.hpp", "symbols": ["SPSA::Optimize"]}, {"file": "include/ensmallen_bits/spsa/spsa.hpp", "symbols": ["SPSA::SPSA"]}]}
{"id": "C140", "title": "Lookahead returns the objective of the coordinates it returns", "statement": "If the inner optimizer returns the objective of its final coordinates, the value returned by Lookahead is the objective of the coordinates it leaves.", "quantifier": "every inner optimizer, objective and iteration count", "why_tests_cant": "Arbitrary inner optimizers. (False when the iteration limit ends the run without exactObjective.)", "anchors": [{"file": "include/ensmallen_bits/lookahead/lookahead_impl.hpp", "symbols": ["Lookahead::Optimize"]}]}
{"id": "C141", "title": "Lookahead and its callbacks", "statement": "During Lookahead::Optimize the callbacks see one beginning and one end of an optimization, and a stop request from any notification ends it.", "quantifier": "every inner optimizer and callback", "why_tests_cant": "All runs. (False: the same callbacks are handed to each inner run, and a stop request made there ends that inner run only.)", "anchors": [{"file": "include/ensmallen_bits/lookahead/lookahead_impl.hpp", "symbols": ["Lookahead::Optimize"]}]}
{"id": "C142", "title": "SPSA's gradient estimate on quadratics", "statement": "On a quadratic objective the SPSA estimate averaged over all sign vectors is exactly the gradient, and every single move is along a descent direction.", "quantifier": "every quadratic, dimension, probe size and draw", "why_tests_cant": "Continuous domain, all 2^n draws in every dimension.", "anchors": [{"file": "include/ensmallen_bits/spsa/spsa_impl.hpp", "symbols": ["SPSA::Optimize"]}]}
{"id": "C143", "title": "Big-batch SGD ends and stays within the functions", "statement": "BigBatchSGD::Optimize ends for every positive batch size, asks only for gradients of existing functions, and evaluates only ranges within the functions.", "quantifier": "every objective, callback, growth decision and step size policy that returns", "why_tests_cant": "Data-dependent batch growth, unbounded runs.", "anchors": [{"file": "include/ensmallen_bits/bigbatch_sgd/bigbatch_sgd_impl.hpp", "symbols": ["BigBatchSGD::Optimize"]}]}
{"id": "C144", "title": "Big-batch SGD's batch size", "statement": "The batch size never shrinks, and a batch that has grown is smaller than the number of functions.", "quantifier": "every run", "why_tests_cant": "Data-dependent batch growth.", "anchors": [{"file": "include/ensmallen_bits/bigbatch_sgd/bigbatch_sgd_impl.hpp", "symbols": ["BigBatchSGD::Optimize"]}]}
{"id": "C145", "title": "Big-batch SGD's iteration limit", "statement": "A run computes at most maxIterations gradients.", "quantifier": "every run", "why_tests_cant": "Data-dependent batch growth. (False: growth may exceed the limit by less than the number of functions.)", "anchors": [{"file": "include/ensmallen_bits/bigbatch_sgd/bigbatch_sgd_impl.hpp", "symbols": ["BigBatchSGD::Optimize"]}]}
{"id": "C146", "title": "Big-batch SGD moves along the gradient of its batch", "statement": "The gradient used by an iteration is the sum of the gradients of the functions in the iteration's range, the range also used for the objective and the line search.", "quantifier": "every state and growth decision", "why_tests_cant": "Data-dependent batch growth. (False when the batch grows: an index is counted twice and the last one left out.)", "anchors": [{"file": "include/ensmallen_bits/bigbatch_sgd/bigbatch_sgd_impl.hpp", "symbols": ["BigBatchSGD::Optimize"]}]}
{"id": "C147", "title": "Big-batch SGD's variance estimate", "statement": "The quantity that decides on growth is the sum of the squared distances of the gradients from their mean.", "quantifier": "every batch", "why_tests_cant": "Continuous data. (False: for batches of two it is always 0.)", "anchors": [{"file": "include/ensmallen_bits/bigbatch_sgd/bigbatch_sgd_impl.hpp", "symbols": ["BigBatchSGD::Optimize"]}]}
{"id": "C148", "title": "The adaptive step size of big-batch SGD", "statement": "AdaptiveStepsize returns, leaving a step size that satisfies the sufficient decrease condition at the coordinates it leaves.", "quantifier": "every objective, gradient and starting step", "why_tests_cant": "Arbitrary objective. (Returning is false over the reals: on concave batch objectives the step size becomes negative and the search does not end.)", "anchors": [{"file": "include/ensmallen_bits/bigbatch_sgd/adaptive_stepsize.hpp", "symbols": ["AdaptiveStepsize::Policy::Update", "AdaptiveStepsize::Policy::Backtracking"]}]}
{"id": "C149", "title": "SGD computes the textbook recursion", "statement": "With gradient callbacks that transform gradients, step callbacks that transform coordinates and nothing that stops the run, the coordinates, step size and policy objects left by SGD::Optimize are those of the plain recursion: next batch, gradient at the current coordinates, clip, update policy, project, decay policy - iterated until the limit (2^64-1 for maxIterations = 0).", "quantifier": "every update and decay policy, function, batch size, starting point and reuse of the object", "why_tests_cant": "Unbounded runs, arbitrary policies and functions.", "anchors": [{"file": "include/ensmallen_bits/sgd/sgd_impl.hpp", "symbols": ["SGD::Optimize"]}]}
{"id": "C150", "title": "SGD's tests at the end of an epoch", "statement": "SGD continues after an epoch only if its objective sum is finite and not within the tolerance of the preceding epoch's; a tolerance return means the last two sums are within the tolerance, a NaN/Inf return that the last sum is NaN/Inf; the returned value is then that sum; EndEpoch is told the epoch's sum divided by the number of functions.", "quantifier": "every function, policy, callback and limit", "why_tests_cant": "Arbitrary functions and callbacks, unbounded runs.", "anchors": [{"file": "include/ensmallen_bits/sgd/sgd_impl.hpp", "symbols": ["SGD::Optimize"]}]}
{"id": "C151", "title": "Gradient descent computes the projected iteration", "statement": "The points evaluated by GradientDescent are exactly the iterates of: step along the gradient the callbacks left, then what the step callbacks make of the result; it stops by tolerance (NaN/Inf) at the first iterate whose objective is within the tolerance of the preceding one (is not finite) and hands back that iterate.", "quantifier": "every objective, callback transformation and stop request", "why_tests_cant": "Arbitrary functions, unbounded runs.", "anchors": [{"file": "include/ensmallen_bits/gradient_descent/gradient_descent_impl.hpp", "symbols": ["GradientDescent::Optimize"]}]}
{"id": "C152", "title": "TimerStop measures the current run", "statement": "At the end of every epoch TimerStop asks to stop exactly if more than the configured duration has passed since the BeginOptimization of the current run, also when the object was used before.", "quantifier": "every sequence of notifications and clock readings", "why_tests_cant": "Arbitrary clocks and histories.", "anchors": [{"file": "include/ensmallen_bits/callbacks/timer_stop.hpp", "symbols": ["TimerStop::BeginOptimization", "TimerStop::EndEpoch"]}]}
{"id": "C153", "title": "Epsilon indicator is the covering factor", "statement": "Epsilon::Evaluate is the smallest factor by which the reference front must be multiplied to be weakly dominated by the front; it is at most 1 exactly when the front covers the reference, and a front that covers another is never rated worse. (True for positive objective values; false with negative values, where better fronts are rated worse, and with zeros in the reference, which are ignored.)", "quantifier": "every pair of fronts of any size and dimension", "why_tests_cant": "All fronts; an equivalence over a continuous domain.", "anchors": [{"file": "include/ensmallen_bits/utility/indicators/epsilon.hpp", "symbols": ["Epsilon::Evaluate"]}]}
{"id": "C154", "title": "Remaining bundled problems: Gradient is the derivative of Evaluate", "statement": "For Ackley, Bukin N6, DropWave, Eggholder, Matyas, Rastrigin, Schwefel, SGDTest, TestFuncFW and the batch gradients of GeneralizedRosenbrock, Gradient() is the derivative of Evaluate(). (False at every point or for every batch of a general kind for Matyas, Rastrigin, TestFuncFW, Eggholder, GeneralizedRosenbrock batches and, by a small epsilon, Ackley; for the others true away from the points where they are not differentiable.)", "quantifier": "every point and batch", "why_tests_cant": "Continuous domain.", "anchors": [{"file": "include/ensmallen_bits/problems/ackley_function_impl.hpp", "symbols": ["Evaluate", "Gradient"]}, {"file": "include/ensmallen_bits/problems/bukin_function_impl.hpp", "symbols": ["Evaluate", "Gradient"]}, {"file": "include/ensmallen_bits/problems/drop_wave_function_impl.hpp", "symbols": ["Evaluate", "Gradient"]}, {"file": "include/ensmallen_bits/problems/eggholder_function_impl.hpp", "symbols": ["Evaluate", "Gradient"]}, {"file": "include/ensmallen_bits/problems/matyas_function_impl.hpp", "symbols": ["Evaluate", "Gradient"]}, {"file": "include/ensmallen_bits/problems/rastrigin_function_impl.hpp", "symbols": ["Evaluate", "Gradient"]}, {"file": "include/ensmallen_bits/problems/schwefel_function_impl.hpp", "symbols": ["Evaluate", "Gradient"]}, {"file": "include/ensmallen_bits/problems/sgd_test_function_impl.hpp", "symbols": ["Evaluate", "Gradient"]}, {"file": "include/ensmallen_bits/problems/generalized_rosenbrock_function_impl.hpp", "symbols": ["Evaluate", "Gradient"]}, {"file": "include/ensmallen_bits/problems/fw_test_function.hpp", "symbols": ["Evaluate", "Gradient"]}]}
{"id": "C155", "title": "Rastrigin: batches add up to the full objective", "statement": "For every split of the index range into consecutive batches the Rastrigin batch objectives add up to the objective of the whole range. (False: every batch adds the constant of all dimensions.)", "quantifier": "every point and split", "why_tests_cant": "All splits.", "anchors": [{"file": "include/ensmallen_bits/problems/rastrigin_function_impl.hpp", "symbols": ["Evaluate"]}]}
{"id": "C156", "title": "Remaining bundled problems: the documented minimum is the minimum", "statement": "For DropWave, Easom, McCormick, Schwefel and Styblinski-Tang the documented point attains the documented value and no point has a smaller objective. (True up to the stated tolerance or on the search domain for some; false as stated for DropWave, McCormick, Schwefel and Styblinski-Tang.)", "quantifier": "every point", "why_tests_cant": "A global minimum over a continuous domain.", "anchors": [{"file": "include/ensmallen_bits/problems/drop_wave_function.hpp", "symbols": ["GetFinalPoint", "GetFinalObjective"]}, {"file": "include/ensmallen_bits/problems/easom_function.hpp", "symbols": ["GetFinalPoint", "GetFinalObjective"]}, {"file": "include/ensmallen_bits/problems/mc_cormick_function.hpp", "symbols": ["GetFinalPoint", "GetFinalObjective"]}, {"file": "include/ensmallen_bits/problems/schwefel_function.hpp", "symbols": ["GetFinalPoint", "GetFinalObjective"]}, {"file": "include/ensmallen_bits/problems/styblinski_tang_function.hpp", "symbols": ["GetFinalPoint", "GetFinalObjective"]}]}
{"id": "C157", "title": "A stop request ends population methods and annealing promptly", "statement": "When any callback asks to stop, SA evaluates the objective no more (except one initial move if the request came with the very first evaluation), PSO evaluates no more and finishes at most the current iteration, CNE and CMA-ES complete at most the current generation, and DE tries at most one more member and starts no further generation.", "quantifier": "every objective, callback, random sequence, policy and moment of the request", "why_tests_cant": "The request may come at any notification of any run; tests stop at one place.", "anchors": [{"file": "include/ensmallen_bits/sa/sa_impl.hpp", "symbols": ["Optimize"]}, {"file": "include/ensmallen_bits/de/de_impl.hpp", "symbols": ["Optimize"]}, {"file": "include/ensmallen_bits/pso/pso_impl.hpp", "symbols": ["Optimize"]}, {"file": "include/ensmallen_bits/cne/cne_impl.hpp", "symbols": ["Optimize"]}, {"file": "include/ensmallen_bits/cmaes/cmaes_impl.hpp", "symbols": ["Optimize"]}, {"file": "include/ensmallen_bits/cmaes/full_selection.hpp", "symbols": ["Select"]}, {"file": "include/ensmallen_bits/cmaes/random_selection.hpp", "symbols": ["Select"]}]}
{"id": "C158", "title": "SA: the frozen test is exact", "statement": "SA reports a frozen system only if maxToleranceSweep * moveCtrlSweep * n consecutive steps changed the energy by less than the tolerance, and never goes on after that many.", "quantifier": "every objective, schedule and random sequence", "why_tests_cant": "Concerns all runs and the exact step at which they end.", "anchors": [{"file": "include/ensmallen_bits/sa/sa_impl.hpp", "symbols": ["Optimize"]}]}
{"id": "C159", "title": "SA: move sizes and proposals", "statement": "Every move uses the size obtained from initMoveCoef by applying MoveControl once after every moveCtrlSweep sweeps with the acceptance count of exactly those sweeps; MoveControl enlarges a size below the maximum exactly when more than 44% of the moves were accepted and reduces it exactly when fewer were; proposals are Laplace distributed around the current value with the move size as scale.", "quantifier": "every run; every value, size and threshold", "why_tests_cant": "Whole-run invariant; a distribution.", "anchors": [{"file": "include/ensmallen_bits/sa/sa_impl.hpp", "symbols": ["GenerateMove", "MoveControl", "Optimize"]}]}
{"id": "C160", "title": "PSO is the textbook iteration", "statement": "With watching callbacks a run is k textbook iterations with horizonSize <= k <= maxIterations: personal bests are brought up to date, velocities computed from the swarm so obtained, positions moved by the new velocities; exactly these positions are evaluated and the result is the personal best of a particle. A horizon longer than maxIterations, and nothing else, is rejected.", "quantifier": "every objective, velocity and initialisation policy, swarm, horizon and limit", "why_tests_cant": "All interleavings of update and evaluation over all runs.", "anchors": [{"file": "include/ensmallen_bits/pso/pso_impl.hpp", "symbols": ["Optimize"]}]}
{"id": "C161", "title": "CNE: the shape of a run", "statement": "A run evaluates the starting point, then at most maxGenerations generations, then the result. Every candidate is announced with StepTaken, what the callback leaves of it is evaluated once, and that value is its fitness; only the last generation sees a stop request.", "quantifier": "every objective, callback and random sequence", "why_tests_cant": "Order and completeness of notifications over all runs.", "anchors": [{"file": "include/ensmallen_bits/cne/cne_impl.hpp", "symbols": ["Optimize"]}]}
{"id": "C162", "title": "L-BFGS: a stop request ends the run with the line search under way", "statement": "After any callback of L-BFGS asks to stop, the objective is evaluated fewer than max(1, maxLineSearchTrials) more times and at most one more step is announced.", "quantifier": "every objective, callback, setting and moment of the request", "why_tests_cant": "The request may come at any notification of any run.", "anchors": [{"file": "include/ensmallen_bits/lbfgs/lbfgs_impl.hpp", "symbols": ["LineSearch", "Optimize"]}]}
{"id": "C163", "title": "L-BFGS: trial steps of the line search", "statement": "The first trial step is 1. A further trial is made only while the step is within [minStep, maxStep]; it is shorter than the last if that one did not decrease the objective enough or met too large a slope, and longer if the decrease was sufficient but the slope still too negative.", "quantifier": "every objective, direction, setting and number of trials", "why_tests_cant": "All sequences of trials.", "anchors": [{"file": "include/ensmallen_bits/lbfgs/lbfgs_impl.hpp", "symbols": ["LineSearch"]}]}
{"id": "C164", "title": "L-BFGS: what the curvature pairs are made of", "statement": "Every pair given to UpdateBasisSet consists of the coordinates the line search reached and those it started from (where the previous step, after the callback, ended) and of the gradients held at the two ends; each search direction is computed from exactly the earlier pairs.", "quantifier": "every objective, callback and run length", "why_tests_cant": "Whole-run invariant with arbitrary callbacks.", "anchors": [{"file": "include/ensmallen_bits/lbfgs/lbfgs_impl.hpp", "symbols": ["Optimize", "UpdateBasisSet", "SearchDirection"]}]}
{"id": "C165", "title": "ParallelSGD: iteration and stopping rule", "statement": "A run is the iteration 'evaluate, ask the step size policy once with the number of the round, run the parallel region' up to the first round that may not start, and the reason it ended (limit or stop request, objective not finite, two successive objectives within tolerance) is the one that holds then.", "quantifier": "every function, policy, interleaving outcome, tolerance and limit", "why_tests_cant": "All run lengths and outcomes of the parallel regions.", "anchors": [{"file": "include/ensmallen_bits/parallel_sgd/parallel_sgd_impl.hpp", "symbols": ["Optimize"]}]}
{"id": "C166", "title": "IQN: stopping rule", "statement": "A run of IQN makes full passes up to the first after which it may not go on; the reason it ended (limit or stop request, objective not finite, objective below the tolerance) is the one that holds then, and the value returned is the objective after the last pass.", "quantifier": "every function, callback, batch size, tolerance and limit", "why_tests_cant": "All run lengths.", "anchors": [{"file": "include/ensmallen_bits/iqn/iqn_impl.hpp", "symbols": ["Optimize"]}]}
{"id": "C167", "title": "CD: when the objective is computed, and the stopping rule", "statement": "CD computes the objective after every updateInterval-th step and at no other moment of the loop. It stops with 'converged' exactly at a periodic value within tolerance of the periodic value before it, stops with a failure exactly at a NaN or infinite periodic value, and otherwise runs to the limit or a stop request and computes one last value.", "quantifier": "every function, descent policy, callback, tolerance, updateInterval and maxIterations", "why_tests_cant": "All run lengths and update intervals.", "anchors": [{"file": "include/ensmallen_bits/cd/cd_impl.hpp", "symbols": ["Optimize"]}]}
{"id": "C168", "title": "Eve and SPALeRASGD: which functions are visited, and termination", "statement": "With at least one function and a positive batch size, Optimize always returns. The separable functions are visited in the order 0, 1, ..., n-1, 0, 1, ..., at most maxIterations of them in total, and exactly that many when no callback asks to stop and no stopping test ends the run. Every range handed to Evaluate or EvaluateWithGradient is non-empty and inside [0, n), in the loop of at most batchSize functions.", "quantifier": "every objective, callback, update and decay behaviour, every n, batchSize and maxIterations", "why_tests_cant": "All run lengths and all combinations of n, batchSize and maxIterations.", "anchors": [{"file": "include/ensmallen_bits/eve/eve_impl.hpp", "symbols": ["Optimize"]}, {"file": "include/ensmallen_bits/spalera_sgd/spalera_sgd_impl.hpp", "symbols": ["Optimize"]}]}
{"id": "C169", "title": "Eve and SPALeRASGD: order of notifications, and stop requests", "statement": "BeginOptimization is the first call and EndOptimization the last and only one, with the returned coordinates. An evaluated batch is followed by exactly one step unless a callback asked to stop; a successful step is followed by StepTaken and the decay policy; an epoch that ends is followed by the next BeginEpoch or by the end. After a callback has asked to stop no batch is differentiated and no step is made. Evaluations and steps are at the current coordinates.", "quantifier": "every run that returns, every pattern of stop requests", "why_tests_cant": "All positions of a stop request in runs of any length.", "anchors": [{"file": "include/ensmallen_bits/eve/eve_impl.hpp", "symbols": ["Optimize"]}, {"file": "include/ensmallen_bits/spalera_sgd/spalera_sgd_impl.hpp", "symbols": ["Optimize"]}]}
{"id": "C170", "title": "Eve and SPALeRASGD: epochs, stopping tests and exactObjective", "statement": "Epochs are numbered from 1 and end exactly when all functions have been visited once more; EndEpoch reports the sum of the objective values computed since the last epoch ended divided by n. The run ends early exactly after the first epoch whose sum is NaN or infinite, or within tolerance of the one before, or when the SPALeRA policy reports failure. With exactObjective a run that ends otherwise returns the full objective at the returned coordinates.", "quantifier": "every run that returns", "why_tests_cant": "All run lengths and values.", "anchors": [{"file": "include/ensmallen_bits/eve/eve_impl.hpp", "symbols": ["Optimize"]}, {"file": "include/ensmallen_bits/spalera_sgd/spalera_sgd_impl.hpp", "symbols": ["Optimize"]}]}
{"id": "C171", "title": "The objective passed to EndEpoch is the average over the epoch (Eve, SPALeRASGD)", "statement": "EndEpoch receives the sum of the objective values of the batches of this epoch divided by the number of functions.", "quantifier": "every epoch of every run", "why_tests_cant": "All runs.", "anchors": [{"file": "include/ensmallen_bits/eve/eve_impl.hpp", "symbols": ["Optimize"]}, {"file": "include/ensmallen_bits/spalera_sgd/spalera_sgd_impl.hpp", "symbols": ["Optimize"]}]}
{"id": "C172", "title": "Eve: feedback term and steps are bounded", "statement": "For clip >= 1 and 0 <= beta3 <= 1 the feedback term dt stays within [1/clip, clip] whatever the objectives; for beta1^2 < beta2 no step moves a coordinate by more than stepSize * clip / sqrt((1 - beta2)(1 - beta1^2 / beta2)).", "quantifier": "every history of objectives, gradients and batch sizes", "why_tests_cant": "Unbounded histories of real numbers.", "anchors": [{"file": "include/ensmallen_bits/eve/eve_impl.hpp", "symbols": ["Optimize"]}]}
{"id": "C173", "title": "Eve: bias correction is exact on a constant gradient", "statement": "If every batch has the same gradient g, every step is stepSize / dt * g / (|g| + epsilon).", "quantifier": "every gradient, batch size and number of steps", "why_tests_cant": "All histories.", "anchors": [{"file": "include/ensmallen_bits/eve/eve_impl.hpp", "symbols": ["Optimize"]}]}
{"id": "C174", "title": "SPALeRASGD never changes the shape of the coordinates", "statement": "No call of SPALeRAStepsize::Update, from a fresh policy, replaces the coordinates by an empty matrix.", "quantifier": "every history of calls, every lambda", "why_tests_cant": "All histories.", "anchors": [{"file": "include/ensmallen_bits/spalera_sgd/spalera_stepsize.hpp", "symbols": ["Update"]}, {"file": "include/ensmallen_bits/spalera_sgd/spalera_sgd_impl.hpp", "symbols": ["Optimize"]}]}
{"id": "C175", "title": "SPALeRASGD: backtracking undoes one step; learning rates stay positive and bounded", "statement": "For lambda >= 0 a reset returns exactly to the coordinates handed to the previous Update call, halves all learning rates, and is followed by a normal step. Learning rates stay positive, after n calls none exceeds exp(n * adaptRate * elements / alpha), and the relaxed gradient sums stay in the unit ball.", "quantifier": "every history of calls", "why_tests_cant": "Unbounded histories of real numbers.", "anchors": [{"file": "include/ensmallen_bits/spalera_sgd/spalera_stepsize.hpp", "symbols": ["Update"]}]}
{"id": "C176", "title": "SVRG and Katyusha compute their published sequences and stop exactly when they should", "statement": "For an objective that is a function of the coordinates and callbacks that let the run go on unchanged, the coordinates after every epoch are those of the published recursion with batches taken in order and wrapped around, and the run ends at the first snapshot whose objective is NaN or infinite or within tolerance of the one before, or at maxIterations; the value returned is the objective of that snapshot (or, with exactObjective at the limit, of the result).", "quantifier": "every objective, batch size, number of inner iterations, iteration limit; SVRG with update and decay policies that are functions of their arguments", "why_tests_cant": "Whole runs of every length against an independent recursion; tests look at the end result on a few problems.", "anchors": [{"file": "include/ensmallen_bits/svrg/svrg_impl.hpp", "symbols": ["Optimize"]}, {"file": "include/ensmallen_bits/katyusha/katyusha_impl.hpp", "symbols": ["Optimize"]}]}
{"id": "C177", "title": "The moves of the adaptive update policies as explicit functions of all gradients so far", "statement": "Each move of AdaGrad, AdaSqrt, RMSProp, AdaDelta, Adam, AMSGrad, Padam, AdaMax, OptimisticAdam, AdaBelief, QHAdam, Nadam, NadaMax, AdaBound and AMSBound equals the published expression in sums, exponential averages and maxima over the whole history of gradients; AdaDelta moves at most stepSize * sqrt((E + epsilon) / (1 - rho)).", "quantifier": "every history of gradients and step sizes", "why_tests_cant": "Unbounded histories of real numbers.", "anchors": [{"file": "include/ensmallen_bits/ada_delta/ada_delta_update.hpp", "symbols": ["Update"]}, {"file": "include/ensmallen_bits/ada_sqrt/ada_sqrt_update.hpp", "symbols": ["Update"]}, {"file": "include/ensmallen_bits/adam/adam_update.hpp", "symbols": ["Update"]}, {"file": "include/ensmallen_bits/adam/nadam_update.hpp", "symbols": ["Update"]}, {"file": "include/ensmallen_bits/ada_belief/ada_belief_update.hpp", "symbols": ["Update"]}, {"file": "include/ensmallen_bits/qhadam/qhadam_update.hpp", "symbols": ["Update"]}, {"file": "include/ensmallen_bits/ada_bound/ada_bound_update.hpp", "symbols": ["Update"]}]}
{"id": "C178", "title": "SPSA moves by the published gain sequences, and the defaults meet Spall's conditions", "statement": "The k-th move of a run is the published step with gains stepSize / (k + 1 + maxIterations / 1000)^alpha and evaluationStepSize / (k + 1)^gamma. For the default exponents both sequences decrease to zero, the steps sum to infinity and the squared quotients have a finite sum.", "quantifier": "every run, every objective; every 0 < alpha <= 1, 0 < gamma < alpha - 1/2", "why_tests_cant": "Infinite sums and runs of every length.", "anchors": [{"file": "include/ensmallen_bits/spsa/spsa_impl.hpp", "symbols": ["SPSA", "Optimize"]}, {"file": "include/ensmallen_bits/spsa/spsa.hpp", "symbols": ["SPSA"]}]}
{"id": "C179", "title": "Every event of a BigBatchSGD run follows from the events before it", "statement": "In every run, each gradient, step size policy call, step, evaluation, epoch notification and shuffle is at the coordinates left by the preceding events. No step is taken once a callback has asked to stop. A step starts where the last one ended, has as many functions as gradients were computed for it, stays within the iteration limit unless its batch has just grown, and its functions are evaluated at the new coordinates right after it. An epoch ends exactly when every function has been stepped on once more, and EndEpoch gets its number and average, BeginEpoch its sum.", "quantifier": "every objective, callback, step size policy, growth decision, batch size and iteration limit; every run that ends", "why_tests_cant": "Runs of every length with arbitrary user code and growth decisions.", "anchors": [{"file": "include/ensmallen_bits/bigbatch_sgd/bigbatch_sgd_impl.hpp", "symbols": ["Optimize"]}]}
{"id": "C180", "title": "BigBatchSGD stops exactly when it should", "statement": "A run reporting failure ends at the first epoch whose sum is NaN or infinite, one reporting convergence at the first epoch whose sum is within tolerance of that of the epoch before, and both return that sum. Any other run passed both tests at every epoch and ends because a callback asked for it or the iterations are used up; with exactObjective it returns the sum of one pass over all functions at the result.", "quantifier": "every objective, callback, step size policy, tolerance, batch size and iteration limit; every run that ends", "why_tests_cant": "Runs of every length.", "anchors": [{"file": "include/ensmallen_bits/bigbatch_sgd/bigbatch_sgd_impl.hpp", "symbols": ["Optimize"]}]}
{"id": "C181", "title": "BigBatchSGD returns the objective of the last epoch", "statement": "Without exactObjective, the returned value is the sum of the objectives of the steps of the last epoch in which a step was taken. False when a callback stops the run at the end of an epoch: zero is returned.", "quantifier": "every objective, callback, step size policy, batch size and iteration limit; every run that ends", "why_tests_cant": "Runs of every length; the failing case needs a stop request at one particular moment.", "anchors": [{"file": "include/ensmallen_bits/bigbatch_sgd/bigbatch_sgd_impl.hpp", "symbols": ["Optimize"]}]}
{"id": "C182", "title": "CMA-ES: batches and exact stopping rule", "statement": "The objective of a point is computed over non-empty batches of at most batchSize functions that cover all functions once and in order. A run reports convergence at the first generation whose best objective is within tolerance of that of the generation before, once more than `patience` generations have been counted since it last was not; it fails at the first generation whose best objective is NaN or infinite; otherwise, unless the step size diverged, it made all its generations or a callback asked to stop.", "quantifier": "every objective, callback, sampling, adaptation, selection policy that passes on stop requests, batch size, patience and iteration limit; every run that ends", "why_tests_cant": "Runs of every length with arbitrary adaptation.", "anchors": [{"file": "include/ensmallen_bits/cmaes/cmaes_impl.hpp", "symbols": ["Optimize"]}, {"file": "include/ensmallen_bits/cmaes/active_cmaes_impl.hpp", "symbols": ["Optimize"]}, {"file": "include/ensmallen_bits/cmaes/full_selection.hpp", "symbols": ["Select"]}]}
{"id": "C183", "title": "LRSDP: augmented value and gradient", "statement": "For an SDP with symmetric matrices, the augmented Lagrangian value computed by Evaluate at R is tr(C R R^T) minus the multiplier terms plus the penalty, over the sparse and dense constraints in this order, and the Gradient call that follows at the same R is its gradient.", "quantifier": "every SDP with symmetric matrices, any number of sparse and dense constraints, any rank, multipliers, penalty parameter and point", "why_tests_cant": "Requires derivatives along all directions for all problem sizes.", "anchors": [{"file": "include/ensmallen_bits/sdp/lrsdp_function_impl.hpp", "symbols": ["EvaluateImpl", "GradientImpl", "UpdateObjective", "UpdateGradient"]}]}
{"id": "C184", "title": "LRSDP gradient for any matrices", "statement": "The gradient LRSDP uses is the gradient of the augmented Lagrangian whatever matrices the user supplies.", "quantifier": "every SDP", "why_tests_cant": "Statement over all matrices. (False: the matrices must be symmetric.)", "anchors": [{"file": "include/ensmallen_bits/sdp/lrsdp_function_impl.hpp", "symbols": ["GradientImpl", "UpdateGradient"]}]}
{"id": "C185", "title": "LRSDP runs the augmented Lagrangian method on the SDP", "statement": "LRSDP::Optimize behaves as the augmented Lagrangian method on the SDP: constraint values, multiplier updates and the returned objective are those at the coordinates.", "quantifier": "every SDP, inner optimizer, callbacks that leave the coordinates alone, iteration limit", "why_tests_cant": "A statement about whole runs for every inner optimizer. (False for L-BFGS when its line search ends with a trial that is not its best.)", "anchors": [{"file": "include/ensmallen_bits/sdp/lrsdp_impl.hpp", "symbols": ["Optimize"]}, {"file": "include/ensmallen_bits/sdp/lrsdp_function_impl.hpp", "symbols": ["Evaluate", "EvaluateConstraint"]}, {"file": "include/ensmallen_bits/aug_lagrangian/aug_lagrangian_impl.hpp", "symbols": ["Optimize"]}]}
{"id": "C186", "title": "BigBatchSGD: the variance that decides about growth", "statement": "The variance term with which BigBatchSGD decides whether to enlarge the batch is the sum of squared deviations of the gradients of the batch from their mean.", "quantifier": "every deterministic objective, batch size and position, real inner product space", "why_tests_cant": "A statement about Welford recurrences of any length. (False: the first gradient of the batch is dropped.)", "anchors": [{"file": "include/ensmallen_bits/bigbatch_sgd/bigbatch_sgd_impl.hpp", "symbols": ["Optimize"]}]}
{"id": "C187", "title": "PrimalDualSolver: the Newton system", "statement": "The direction (dX, dy, dZ) computed from residuals rp, rd, rc solves the linearised optimality conditions: A^T dy + dZ = rd, A dX = rp and (Z dX + dX Z)/2 + (X dZ + dZ X)/2 = rc, with dX and dZ symmetric, although the code forms only a Schur complement from Lyapunov solutions.", "quantifier": "every program with symmetric matrices, every symmetric X, positive definite Z and right-hand side, any ordered field, exact library routines", "why_tests_cant": "Tests check the end result of a few programs; a wrong elimination may still converge slowly.", "anchors": [{"file": "include/ensmallen_bits/sdp/primal_dual_impl.hpp", "symbols": ["SolveKKTSystem", "SolveLyapunov"]}]}
{"id": "C188", "title": "PrimalDualSolver: step length", "statement": "Alpha(A, dA, tau) computes min(1, tau * alphahat) where alphahat is the supremum of the steps for which A + t dA stays positive semidefinite, and the matrix stays positive definite.", "quantifier": "every positive definite A, symmetric dA, tau in (0, 1), exact library routines", "why_tests_cant": "A supremum over a cone; tests never look at the step length. (False in part: a direction that never leaves the cone gets tau, not 1.)", "anchors": [{"file": "include/ensmallen_bits/sdp/primal_dual_impl.hpp", "symbols": ["Alpha"]}]}
{"id": "C189", "title": "PrimalDualSolver: iterates stay interior and infeasibility shrinks", "statement": "From positive definite starting points both iterates stay symmetric positive definite in every iteration, no run ends with a failed Cholesky decomposition, and each step with lengths alpha, beta in (0, 1] multiplies the violation of every equality constraint by 1 - alpha and that of the dual constraint by 1 - beta.", "quantifier": "every program with symmetric matrices, every starting point, any number of iterations, exact arithmetic", "why_tests_cant": "An invariant of all runs; tests see only the last iterate.", "anchors": [{"file": "include/ensmallen_bits/sdp/primal_dual_impl.hpp", "symbols": ["Optimize", "Alpha", "SolveKKTSystem"]}]}
{"id": "C190", "title": "PrimalDualSolver: convergence is a certificate", "statement": "If the solver reports convergence, the returned value exceeds the objective of any feasible point X' by at most sqrt(n) * normXzTol + norm(y) * primalInfeasTol + norm(X - X') * dualInfeasTol.", "quantifier": "every program, tolerance, starting point and feasible point, exact arithmetic", "why_tests_cant": "Quantifies over all feasible points of all programs (weak duality).", "anchors": [{"file": "include/ensmallen_bits/sdp/primal_dual_impl.hpp", "symbols": ["Optimize"]}]}
{"id": "C191", "title": "PrimalDualSolver: callbacks", "statement": "BeginOptimization comes first, then one StepTaken per iteration, at most maxIterations of them, and EndOptimization is the last call of every run that returns.", "quantifier": "all programs, library routines and callbacks", "why_tests_cant": "Needs every exit path of the solver. (False: no EndOptimization after convergence, and only maxIterations - 1 iterations.)", "anchors": [{"file": "include/ensmallen_bits/sdp/primal_dual_impl.hpp", "symbols": ["Optimize"]}]}
{"id": "C192", "title": "PrimalDualSolver: returned value", "statement": "The value returned is the primal objective at the coordinates handed back.", "quantifier": "all programs, library routines and callbacks", "why_tests_cant": "Needs every exit path. (False: a run that makes no iteration returns 0; with maxIterations = 1 no iteration is made.)", "anchors": [{"file": "include/ensmallen_bits/sdp/primal_dual_impl.hpp", "symbols": ["Optimize"]}]}
{"id": "C193", "title": "AGEMOEA: ideal point", "statement": "The ideal point computed from the first front is, in every objective, the least value of the whole population; the normalised objectives of the first front that GenerationalStepTaken sees are not negative and each attains 0.", "quantifier": "every population, number of objectives and ranking; first fronts with at least as many members as objectives for the normalised values", "why_tests_cant": "A statement about all populations: it uses that every member is dominated by a member of the first front.", "anchors": [{"file": "include/ensmallen_bits/agemoea/agemoea_impl.hpp", "symbols": ["Optimize", "SurvivalScoreAssignment"]}]}
{"id": "C194", "title": "AGEMOEA: normalisation", "statement": "The objectives are divided by positive numbers, chosen such that the extreme members lie on the hyperplane of points with coordinate sum 1, or else such that each objective has greatest value 1 in the first front.", "quantifier": "every population and ranking, any ordered field, linear solver that returns a solution if it returns one", "why_tests_cant": "Division by zero depends on degenerate fronts tests do not produce. (False for first fronts with fewer members than objectives: the divisor may be 0.)", "anchors": [{"file": "include/ensmallen_bits/agemoea/agemoea_impl.hpp", "symbols": ["NormalizeFront", "FindExtremePoints", "SurvivalScoreAssignment"]}]}
{"id": "C195", "title": "AGEMOEA: survival scores of the first front", "statement": "As many members as there are objectives have infinite score, namely the nearest to the axes; the others are selected greedily, each maximising the sum of the two smallest ratios to the members selected before, and their scores do not increase along the selection.", "quantifier": "every population and ranking, any ordered field, any sane power function", "why_tests_cant": "The greedy invariant concerns every step of the selection for every front.", "anchors": [{"file": "include/ensmallen_bits/agemoea/agemoea_impl.hpp", "symbols": ["SurvivalScoreAssignment", "DiversityScore", "PairwiseDistance", "FindExtremePoints", "PointToLineDistance"]}]}
{"id": "C196", "title": "AGEMOEA: geometry of the front", "statement": "The exponent p fitted to the front satisfies m * avg^p = 1 for the average avg of the central member, i.e. the point with all coordinates avg lies on the unit sphere of the p-norm, unless that p is at most 0.1, in which case p = 1.", "quantifier": "all 0 < avg < 1 and m >= 2, over the reals", "why_tests_cant": "An identity of real functions for all values.", "anchors": [{"file": "include/ensmallen_bits/agemoea/agemoea_impl.hpp", "symbols": ["GetGeometry"]}]}
{"id": "C197", "title": "AGEMOEA: diversity over proximity", "statement": "The score of a member is its diversity (sum of the two smallest distances to the selected members) divided by its own proximity, the distance to the ideal point.", "quantifier": "every population and ranking", "why_tests_cant": "Tests do not look at scores. (False: each distance is divided by the proximity of the other member.)", "anchors": [{"file": "include/ensmallen_bits/agemoea/agemoea_impl.hpp", "symbols": ["SurvivalScoreAssignment"]}]}
{"id": "C198", "title": "AGEMOEA: scores do not depend on the origin", "statement": "Adding constants to the objectives does not change which of two members of the same rank is preferred.", "quantifier": "every population, ranking and vector of constants", "why_tests_cant": "A relation between two runs on all inputs. (False for the later fronts, which are divided but not shifted; proved for the first front.)", "anchors": [{"file": "include/ensmallen_bits/agemoea/agemoea_impl.hpp", "symbols": ["SurvivalScoreAssignment"]}]}
{"id": "C199", "title": "AGEMOEA: elitism", "statement": "No survivor of a generation is dominated by a dropped parent or child; with one objective the best value of the population never gets worse.", "quantifier": "every objective, generation, population size and choice of random numbers", "why_tests_cant": "Needs every population and outcome of the random operators. (False for individuals within epsilon of each other, which share one rank; proved otherwise.)", "anchors": [{"file": "include/ensmallen_bits/agemoea/agemoea_impl.hpp", "symbols": ["Optimize", "SurvivalScoreOperator"]}]}
{"id": "C200", "title": "AGEMOEA: later fronts", "statement": "Within a later front the members nearer to the ideal point, in normalised objectives, are preferred.", "quantifier": "every population and ranking with a first front of at least as many members as objectives", "why_tests_cant": "A statement about all populations. (False unless the ideal point is the origin: normalised objectives are compared with the unnormalised ideal point.)", "anchors": [{"file": "include/ensmallen_bits/agemoea/agemoea_impl.hpp", "symbols": ["SurvivalScoreAssignment"]}]}
{"id": "C201", "title": "PrimalDualSolver: predictor-corrector", "statement": "Every run is a sequence of predictor-corrector steps, one per StepTaken: predictor with right-hand side -(XZ + ZX)/2, centering mu = sigma <X,Z>/n with sigma the cube of the predicted reduction, corrector with the second-order term, separate primal and dual step lengths that go the fraction tau of the way to the boundary.", "quantifier": "every program with symmetric matrices, starting point and number of iterations, exact library routines, callbacks that leave the coordinates alone", "why_tests_cant": "Wrong centering or correction still converges on test programs, only slower.", "anchors": [{"file": "include/ensmallen_bits/sdp/primal_dual_impl.hpp", "symbols": ["Optimize"]}]}
{"id": "C202", "title": "SnapshotSGDR: the ensemble", "statement": "With accumulate, the first Optimize of a new object hands back the mean of the final coordinates of the inner run and of the snapshots, which are the coordinates at the last restarts within the budget (restart j at the end of batch 1 + er (1 + m + ... + m^(j-1))), and returns the sum of all functions at the coordinates handed back.", "quantifier": "every function, update policy, callbacks, epochRestart >= 1, natural multiplier >= 2, at most one snapshot more than restarts in the budget", "why_tests_cant": "The averaged coordinates near a minimum look plausible whichever iterates are averaged.", "anchors": [{"file": "include/ensmallen_bits/sgdr/snapshot_sgdr_impl.hpp", "symbols": ["SnapshotSGDR::Optimize"]}, {"file": "include/ensmallen_bits/sgdr/snapshot_ensembles.hpp", "symbols": ["SnapshotEnsembles", "Policy::Update"]}]}
{"id": "C203", "title": "SnapshotSGDR: snapshots is a maximum", "statement": "A run takes at most `snapshots` snapshots, and exactly that many if that many restarts fit in a budget of single-function batches that is used up.", "quantifier": "every function, update policy, restart period, multiplier", "why_tests_cant": "The number depends on the whole schedule. (False for multFactor = 1.)", "anchors": [{"file": "include/ensmallen_bits/sgdr/snapshot_ensembles.hpp", "symbols": ["SnapshotEnsembles"]}]}
{"id": "C204", "title": "SnapshotSGDR: construction", "statement": "An object can be constructed with every iteration limit, in particular 0 (no limit).", "quantifier": "every restart period, multiplier, limit and number of snapshots", "why_tests_cant": "Needs the exponent arithmetic for all limits. (False: the unsigned exponent wraps around and an infinite double is converted to size_t.)", "anchors": [{"file": "include/ensmallen_bits/sgdr/snapshot_ensembles.hpp", "symbols": ["SnapshotEnsembles::SnapshotEnsembles"]}]}
{"id": "C205", "title": "SnapshotSGDR: reuse of an object", "statement": "With resetPolicy the coordinates handed back by Optimize depend on that call only.", "quantifier": "every history of an object", "why_tests_cant": "A statement about all histories. (False: snapshots of earlier calls enter the mean.)", "anchors": [{"file": "include/ensmallen_bits/sgdr/snapshot_sgdr_impl.hpp", "symbols": ["SnapshotSGDR::Optimize"]}, {"file": "include/ensmallen_bits/sgd/sgd_impl.hpp", "symbols": ["SGD::Optimize"]}]}
{"id": "C206", "title": "SnapshotSGDR: same schedule as SGDR", "statement": "The step sizes of a run are those of SGDR with the same settings.", "quantifier": "every setting and number of batches", "why_tests_cant": "Schedules agree for the constructor batch size and differ only after BatchSize() was changed. (False then.)", "anchors": [{"file": "include/ensmallen_bits/sgdr/snapshot_sgdr_impl.hpp", "symbols": ["SnapshotSGDR::Optimize"]}, {"file": "include/ensmallen_bits/sgdr/sgdr_impl.hpp", "symbols": ["SGDR::Optimize"]}]}
{"id": "C207", "title": "SGDR: warm restart", "statement": "The batch after a restart uses the full step size again.", "quantifier": "every restart period, multiplier >= 1 and number of batches per epoch", "why_tests_cant": "Not visible from the final result. (False for multipliers above 1: the step size stays decayed until the multiplied period has passed.)", "anchors": [{"file": "include/ensmallen_bits/sgdr/cyclical_decay.hpp", "symbols": ["CyclicalDecay", "Policy::Update"]}]}
{"id": "C208", "title": "SGDR: annealing within a cycle", "statement": "Between two restarts the step size does not increase.", "quantifier": "every restart period, multiplier and number of batches per epoch", "why_tests_cant": "Not visible from the final result. (False in cycles longer than an epoch.)", "anchors": [{"file": "include/ensmallen_bits/sgdr/cyclical_decay.hpp", "symbols": ["CyclicalDecay", "Policy::Update"]}]}
{"id": "C209", "title": "OMP is orthogonal matching pursuit", "statement": "A run of OMP (FrankWolfe with UpdateSpan) on FuncSq evaluates the objective at the current coordinates, adds the linear solver's answer to the gradient there to the atoms, and steps to the minimiser of the objective over the span of all atoms chosen so far; every step strictly lowers the objective.", "quantifier": "all matrices, right-hand sides, linear solvers, callbacks that may stop the run, runs of any length", "why_tests_cant": "Relates every step of a run of any length to a minimisation over a subspace, for all data", "anchors": [{"file": "include/ensmallen_bits/fw/update_span.hpp", "symbols": ["UpdateSpan::Update"]}, {"file": "include/ensmallen_bits/fw/atoms.hpp", "symbols": ["Atoms::AddAtom", "Atoms::RecoverVector"]}, {"file": "include/ensmallen_bits/fw/frank_wolfe_impl.hpp", "symbols": ["FrankWolfe::Optimize"]}]}
{"id": "C210", "title": "OMP ends by itself", "statement": "From 0 and without an iteration limit OMP ends: without pruning after at most as many steps as the image space has dimensions, with pruning after at most 1 + 4 L^2 |b|^2 / (3 tol^2) steps; unless a callback stopped it, the gradient at the result is orthogonal to the solver's answer up to the tolerance.", "quantifier": "all matrices, right-hand sides, linear solvers, callbacks", "why_tests_cant": "A termination bound for all data", "anchors": [{"file": "include/ensmallen_bits/fw/update_span.hpp", "symbols": ["UpdateSpan::Update"]}, {"file": "include/ensmallen_bits/fw/frank_wolfe_impl.hpp", "symbols": ["FrankWolfe::Optimize"]}]}
{"id": "C211", "title": "Pruning the support", "statement": "PruneSupport ends with coordinates that are the minimiser over the span of the atoms kept, with the objective within the threshold, and at least one atom; the atom tried for deletion in each pass is the one whose deletion raises the objective least.", "quantifier": "all functions, atoms and thresholds", "why_tests_cant": "The atoms tried depend on all coefficients; a loop of data dependent length", "anchors": [{"file": "include/ensmallen_bits/fw/atoms.hpp", "symbols": ["Atoms::PruneSupport"]}]}
{"id": "C212", "title": "UpdateFullCorrection: constraint, line search, descent", "statement": "UpdateFullCorrection returns a combination of the atoms with coefficients of 1-norm at most tau, its line search is exact over gamma <= 1, and the objective does not increase.", "quantifier": "all functions, atoms, coordinates, step sizes", "why_tests_cant": "Quantifies over all data and the number of gradient passes", "anchors": [{"file": "include/ensmallen_bits/fw/update_full_correction.hpp", "symbols": ["UpdateFullCorrection::Update"]}, {"file": "include/ensmallen_bits/fw/atoms.hpp", "symbols": ["Atoms::ProjectedGradientEnhancement"]}]}
{"id": "C213", "title": "Reusing an OMP object", "statement": "The result of a second Optimize call of the same OMP object does not depend on the first call, and its least squares systems have independent columns.", "quantifier": "all functions and runs", "why_tests_cant": "Relates two runs of any length", "anchors": [{"file": "include/ensmallen_bits/fw/update_span.hpp", "symbols": ["UpdateSpan"]}, {"file": "include/ensmallen_bits/fw/frank_wolfe.hpp", "symbols": ["OMP"]}]}
{"id": "C214", "title": "The logistic regression objective", "statement": "For 0/1 responses LogisticRegressionFunction::Evaluate is the L2-regularised negative log-likelihood (intercept not regularised); Gradient, PartialGradient and EvaluateWithGradient are its derivative, on all data and on every batch; batches that cover the points once add up to the whole; Shuffle changes neither; with lambda >= 0 a zero of Gradient is a global minimum.", "quantifier": "all data sets, dimensions, parameters, batches, permutations", "why_tests_cant": "Derivatives and identities over all data and all ways to split them into batches", "anchors": [{"file": "include/ensmallen_bits/problems/logistic_regression_function_impl.hpp", "symbols": ["LogisticRegressionFunction::Evaluate", "LogisticRegressionFunction::Gradient", "LogisticRegressionFunction::PartialGradient", "LogisticRegressionFunction::EvaluateWithGradient", "LogisticRegressionFunction::Shuffle"]}]}
{"id": "C215", "title": "Logistic regression predictions", "statement": "Classify answers 1 where the sigmoid is greater than the decision boundary and 0 otherwise; ComputeAccuracy is the percentage of points classified as labelled.", "quantifier": "all points, parameters, boundaries", "why_tests_cant": "Truncation of a real quantity, including the boundary case", "anchors": [{"file": "include/ensmallen_bits/problems/logistic_regression_function_impl.hpp", "symbols": ["LogisticRegressionFunction::Classify", "LogisticRegressionFunction::ComputeAccuracy"]}]}
{"id": "C216", "title": "Initial point of logistic regression", "statement": "The constructor that takes an initial point keeps it if Evaluate accepts its shape, and replaces it by zeros if not.", "quantifier": "all shapes", "why_tests_cant": "All dimensions", "anchors": [{"file": "include/ensmallen_bits/problems/logistic_regression_function_impl.hpp", "symbols": ["LogisticRegressionFunction::LogisticRegressionFunction"]}]}
{"id": "C217", "title": "The softmax regression objective", "statement": "SoftmaxRegressionFunction::Evaluate is the mean cross-entropy of the labels plus lambda/2 times the squared parameters, Gradient is its derivative with and without intercept, the probabilities of a point are positive and add up to one, and with lambda >= 0 a zero of Gradient is a global minimum.", "quantifier": "all data sets, numbers of classes, parameters", "why_tests_cant": "Derivatives over all data", "anchors": [{"file": "include/ensmallen_bits/problems/softmax_regression_function_impl.hpp", "symbols": ["SoftmaxRegressionFunction::Evaluate", "SoftmaxRegressionFunction::Gradient", "SoftmaxRegressionFunction::GetProbabilitiesMatrix", "SoftmaxRegressionFunction::GetGroundTruthMatrix"]}]}
{"id": "C218", "title": "Softmax regression on batches", "statement": "The batch forms of Evaluate and Gradient agree with each other, and over an epoch they add up to the whole objective and its gradient.", "quantifier": "all data sets, parameters and batches", "why_tests_cant": "Identities over all ways to split the data into batches", "anchors": [{"file": "include/ensmallen_bits/problems/softmax_regression_function_impl.hpp", "symbols": ["SoftmaxRegressionFunction::Evaluate", "SoftmaxRegressionFunction::Gradient"]}]}
{"id": "C219", "title": "Softmax PartialGradient", "statement": "PartialGradient(theta, j) is column j of Gradient and zero elsewhere.", "quantifier": "all data sets, parameters, columns, with and without intercept", "why_tests_cant": "All columns of all dimensions", "anchors": [{"file": "include/ensmallen_bits/problems/softmax_regression_function_impl.hpp", "symbols": ["SoftmaxRegressionFunction::PartialGradient"]}]}
{"id": "C220", "title": "Softmax Shuffle", "statement": "Shuffle reorders points and labels together, so the objective stays the same.", "quantifier": "all data sets and orderings", "why_tests_cant": "All permutations of all data", "anchors": [{"file": "include/ensmallen_bits/problems/softmax_regression_function_impl.hpp", "symbols": ["SoftmaxRegressionFunction::Shuffle"]}]}
{"id": "C221", "title": "Page-Hinkley test of SPALeRA", "statement": "Since the last reset, a call of SPALeRAStepsize::Policy::Update resets exactly if the cumulated deviation of the relaxed objective from its running mean has risen by more than lambda above one of its earlier values; in the first epoch the relaxed objective is the plain mean.", "quantifier": "all sequences of objectives, batch sizes and gradients", "why_tests_cant": "The test depends on the whole history since the last reset", "anchors": [{"file": "include/ensmallen_bits/spalera_sgd/spalera_stepsize.hpp", "symbols": ["SPALeRAStepsize::Policy::Update"]}]}
{"id": "C222", "title": "Constrained test problems", "statement": "For Snyman's and Gockenbach's problem Gradient and GradientConstraint are the gradients of Evaluate and EvaluateConstraint; the documented minimisers are the constrained minimisers, strictly.", "quantifier": "all points, both constraints", "why_tests_cant": "Derivatives and global optimality over all real points", "anchors": [{"file": "include/ensmallen_bits/problems/aug_lagrangian_test_functions_impl.hpp", "symbols": ["AugLagrangianTestFunction::Gradient", "AugLagrangianTestFunction::GradientConstraint", "GockenbachFunction::Gradient", "GockenbachFunction::EvaluateConstraint", "GockenbachFunction::GradientConstraint"]}]}
{"id": "C223", "title": "Gradients of the Lovasz theta problem", "statement": "LovaszThetaSDP::Gradient and GradientConstraint are the gradients of Evaluate and EvaluateConstraint.", "quantifier": "all graphs, all shapes of coordinates, all edges", "why_tests_cant": "All graphs and matrices", "anchors": [{"file": "include/ensmallen_bits/problems/aug_lagrangian_test_functions_impl.hpp", "symbols": ["LovaszThetaSDP::Evaluate", "LovaszThetaSDP::Gradient", "LovaszThetaSDP::EvaluateConstraint", "LovaszThetaSDP::GradientConstraint"]}]}
{"id": "C224", "title": "Objectives of a multi-objective problem agree", "statement": "For Schaffer N.1, Fonseca-Fleming, ZDT1-4 and 6, DTLZ7, MAF1-3, 5 and 6, Evaluate returns the values of the objective functions of GetObjectives, in their order.", "quantifier": "all points", "why_tests_cant": "Identities of real functions of up to 30 variables", "anchors": [{"file": "include/ensmallen_bits/problems/zdt/zdt1_function.hpp", "symbols": ["ZDT1"]}, {"file": "include/ensmallen_bits/problems/zdt/zdt2_function.hpp", "symbols": ["ZDT2"]}, {"file": "include/ensmallen_bits/problems/zdt/zdt3_function.hpp", "symbols": ["ZDT3"]}, {"file": "include/ensmallen_bits/problems/zdt/zdt4_function.hpp", "symbols": ["ZDT4"]}, {"file": "include/ensmallen_bits/problems/zdt/zdt6_function.hpp", "symbols": ["ZDT6"]}, {"file": "include/ensmallen_bits/problems/schaffer_function_n1.hpp", "symbols": ["SchafferFunctionN1"]}, {"file": "include/ensmallen_bits/problems/fonseca_fleming_function.hpp", "symbols": ["FonsecaFlemingFunction"]}, {"file": "include/ensmallen_bits/problems/dtlz/dtlz7_function.hpp", "symbols": ["DTLZ7"]}, {"file": "include/ensmallen_bits/problems/maf/maf1_function.hpp", "symbols": ["MAF1"]}, {"file": "include/ensmallen_bits/problems/maf/maf2_function.hpp", "symbols": ["MAF2"]}, {"file": "include/ensmallen_bits/problems/maf/maf3_function.hpp", "symbols": ["MAF3"]}, {"file": "include/ensmallen_bits/problems/maf/maf5_function.hpp", "symbols": ["MAF5"]}, {"file": "include/ensmallen_bits/problems/maf/maf6_function.hpp", "symbols": ["MAF6"]}]}
{"id": "C225", "title": "Objectives of DTLZ1-6 and MAF4 agree", "statement": "For DTLZ1-6 and MAF4, Evaluate returns the values of the objective functions of GetObjectives, in their order.", "quantifier": "all points, all parameters alpha and a", "why_tests_cant": "Identities of real functions", "anchors": [{"file": "include/ensmallen_bits/problems/dtlz/dtlz1_function.hpp", "symbols": ["DTLZ1::Evaluate", "DTLZ1Objective::Evaluate"]}, {"file": "include/ensmallen_bits/problems/dtlz/dtlz2_function.hpp", "symbols": ["DTLZ2"]}, {"file": "include/ensmallen_bits/problems/dtlz/dtlz3_function.hpp", "symbols": ["DTLZ3"]}, {"file": "include/ensmallen_bits/problems/dtlz/dtlz4_function.hpp", "symbols": ["DTLZ4"]}, {"file": "include/ensmallen_bits/problems/dtlz/dtlz5_function.hpp", "symbols": ["DTLZ5"]}, {"file": "include/ensmallen_bits/problems/dtlz/dtlz6_function.hpp", "symbols": ["DTLZ6"]}, {"file": "include/ensmallen_bits/problems/maf/maf4_function.hpp", "symbols": ["MAF4"]}]}
{"id": "C226", "title": "Pareto sets of Schaffer N.1 and Fonseca-Fleming", "statement": "The Pareto-optimal points are those of the documented interval resp. segment, and no others.", "quantifier": "all real points", "why_tests_cant": "Pareto optimality quantifies over all competitors", "anchors": [{"file": "include/ensmallen_bits/problems/schaffer_function_n1.hpp", "symbols": ["SchafferFunctionN1"]}, {"file": "include/ensmallen_bits/problems/fonseca_fleming_function.hpp", "symbols": ["FonsecaFlemingFunction"]}]}
{"id": "C227", "title": "Pareto sets and reference fronts of ZDT", "statement": "In the documented box the Pareto-optimal points of ZDT1, 2, 4 and 6 are those whose distance variables are zero (ZDT3: and whose first variable is a record minimum); every point of GetReferenceFront of ZDT1, 2, 4 and 6 is the objective vector of a Pareto-optimal point, and there are numParetoPoints of them.", "quantifier": "all points of the box, all numbers of reference points", "why_tests_cant": "Pareto optimality quantifies over all competitors in 10 or 30 dimensions", "anchors": [{"file": "include/ensmallen_bits/problems/zdt/zdt1_function.hpp", "symbols": ["ZDT1", "ZDT1::GetReferenceFront"]}, {"file": "include/ensmallen_bits/problems/zdt/zdt2_function.hpp", "symbols": ["ZDT2", "ZDT2::GetReferenceFront"]}, {"file": "include/ensmallen_bits/problems/zdt/zdt3_function.hpp", "symbols": ["ZDT3"]}, {"file": "include/ensmallen_bits/problems/zdt/zdt4_function.hpp", "symbols": ["ZDT4", "ZDT4::GetReferenceFront"]}, {"file": "include/ensmallen_bits/problems/zdt/zdt6_function.hpp", "symbols": ["ZDT6", "ZDT6::GetReferenceFront"]}]}
{"id": "C228", "title": "Pareto sets and reference fronts of DTLZ1-4", "statement": "In the unit box the Pareto-optimal points are those whose distance variables are one half, their objectives lie on the documented surface, and GetReferenceFront returns such objectives.", "quantifier": "all points of the box, all alpha, all numbers of reference points", "why_tests_cant": "Pareto optimality quantifies over all competitors", "anchors": [{"file": "include/ensmallen_bits/problems/dtlz/dtlz1_function.hpp", "symbols": ["DTLZ1", "DTLZ1::GetReferenceFront"]}, {"file": "include/ensmallen_bits/problems/dtlz/dtlz2_function.hpp", "symbols": ["DTLZ2", "DTLZ2::GetReferenceFront"]}, {"file": "include/ensmallen_bits/problems/dtlz/dtlz3_function.hpp", "symbols": ["DTLZ3"]}, {"file": "include/ensmallen_bits/problems/dtlz/dtlz4_function.hpp", "symbols": ["DTLZ4"]}]}
{"id": "C229", "title": "The distance variables of MAF2 matter", "statement": "The objectives of MAF2 depend on the variables 3 to 12 through g, and Pareto-optimal points have them all equal to one half.", "quantifier": "all points of the unit box", "why_tests_cant": "Dependence on variables over all points", "anchors": [{"file": "include/ensmallen_bits/problems/maf/maf2_function.hpp", "symbols": ["MAF2::g", "MAF2::Evaluate"]}]}
{"id": "C230", "title": "Pareto sets of MAF1, MAF3-5 and DTLZ7", "statement": "In the unit box the Pareto-optimal points of MAF1, 3, 4 and 5 are exactly those whose distance variables are one half; of DTLZ7 those whose distance variables are zero and whose first two variables cannot be lowered without lowering the sum of t(1 + cos 3 pi t).", "quantifier": "all points of the box, all alpha, all positive a", "why_tests_cant": "Pareto optimality quantifies over all competitors", "anchors": [{"file": "include/ensmallen_bits/problems/maf/maf1_function.hpp", "symbols": ["MAF1"]}, {"file": "include/ensmallen_bits/problems/maf/maf3_function.hpp", "symbols": ["MAF3"]}, {"file": "include/ensmallen_bits/problems/maf/maf4_function.hpp", "symbols": ["MAF4"]}, {"file": "include/ensmallen_bits/problems/maf/maf5_function.hpp", "symbols": ["MAF5"]}, {"file": "include/ensmallen_bits/problems/dtlz/dtlz7_function.hpp", "symbols": ["DTLZ7"]}]}
{"id": "C231", "title": "Tchebycheff and weighted-average decomposition", "statement": "Every Pareto-optimal vector above the ideal point is, for some weight vector, the only minimiser of the Tchebycheff value; its minimisers are weakly Pareto optimal, minimisers of a positive weighted average are Pareto optimal; MOEA/D with Tchebycheff never replaces a member by one that it dominates, and no subproblem gets worse.", "quantifier": "all sets of attainable vectors, all weights, all states of a run", "why_tests_cant": "Optimality over all attainable vectors", "anchors": [{"file": "include/ensmallen_bits/moead/decomposition_policies/tchebycheff_decomposition.hpp", "symbols": ["Tchebycheff::Apply"]}, {"file": "include/ensmallen_bits/moead/decomposition_policies/weighted_decomposition.hpp", "symbols": ["WeightedAverage::Apply"]}, {"file": "include/ensmallen_bits/moead/moead_impl.hpp", "symbols": ["MOEAD::Optimize"]}]}
{"id": "C232", "title": "Penalty-based boundary intersection", "statement": "The two distances are those along and from the reference line, the value on the line is the distance from the ideal point, and a vector that dominates another one has at most its value.", "quantifier": "all vectors, weights, penalties", "why_tests_cant": "Geometry over all real vectors", "anchors": [{"file": "include/ensmallen_bits/moead/decomposition_policies/pbi_decomposition.hpp", "symbols": ["PenaltyBoundaryIntersection::Apply"]}]}
{"id": "C233", "title": "Random weights of MOEA/D lie on the simplex", "statement": "The weight vectors of BayesianBootstrap and Dirichlet have one entry per objective, none negative, adding up to one.", "quantifier": "all draws, numbers of objectives and points, epsilon", "why_tests_cant": "All random draws", "anchors": [{"file": "include/ensmallen_bits/moead/weight_init_policies/bbs_init.hpp", "symbols": ["BayesianBootstrap::Generate"]}, {"file": "include/ensmallen_bits/moead/weight_init_policies/dirichlet_init.hpp", "symbols": ["Dirichlet::Generate"]}]}
{"id": "C234", "title": "Report records one entry per epoch (or per step) with its loss, time, step size and gradient norm", "statement": "For every sequence of callbacks, a new Report holds exactly one entry per EndEpoch if there was one, else one per StepTaken; the entry has the objective of that epoch (for steps: the value of the last Evaluate plus the EvaluateConstraint values after it), the time, the step size and the norm of the last gradient before it. The call counters equal the numbers of Evaluate/EvaluateConstraint, Gradient/GradientConstraint and BeginEpoch calls.", "quantifier": "all sequences of callback events", "why_tests_cant": "the report is text on a stream; the tests only check that something is printed", "anchors": [{"file": "include/ensmallen_bits/callbacks/report.hpp", "symbols": ["Report"]}]}
{"id": "C235", "title": "The iteration table of Report is read from its own run and shows the asked for share of the iterations", "statement": "EndOptimization prints for every shown iteration its own loss, loss change since the previous shown one, gradient norm, step size and time, never reading past the end of a vector, for every percentage in [0, 1]; the percentage is the share of the iterations that is shown.", "quantifier": "all callback sequences, all percentages", "why_tests_cant": "needs optimisers without gradients, reused callback objects and extreme percentages", "anchors": [{"file": "include/ensmallen_bits/callbacks/report.hpp", "symbols": ["Report::EndOptimization"]}]}
{"id": "C236", "title": "Report prints a truncated matrix as documented", "statement": "TruncatePrint prints the first size-1 and the last rows and columns of the coordinates.", "quantifier": "all matrices and sizes", "why_tests_cant": "output is never compared with the matrix in the tests", "anchors": [{"file": "include/ensmallen_bits/callbacks/report.hpp", "symbols": ["Report::TruncatePrint"]}]}
{"id": "C237", "title": "The summary of Report describes the optimisation that just ended", "statement": "Initial and final loss, change, iterations, epochs, calls, step sizes, maximal gradient norm and time are those of the optimisation; the maximum number of iterations is printed for every optimiser that has one and \"Reached maximum iterations\" tells whether it was reached; the precision of the stream is restored.", "quantifier": "all callback sequences, optimisers and functions", "why_tests_cant": "as C235", "anchors": [{"file": "include/ensmallen_bits/callbacks/report.hpp", "symbols": ["Report::EndOptimization", "Report::PrintMaxIterations"]}]}
{"id": "C238", "title": "ProgressBar draws a bar of the given width and shows the running mean loss", "statement": "For every width the bar is drawn with that many characters, filled to the progress of the epoch; steps are numbered 1..epochSize with the number of batches per epoch and of epochs rounded up; the loss shown is the mean batch loss of the epoch so far.", "quantifier": "all widths, batch sizes, epochs and losses", "why_tests_cant": "tests only check that there is output", "anchors": [{"file": "include/ensmallen_bits/callbacks/progress_bar.hpp", "symbols": ["ProgressBar"]}]}
{"id": "C239", "title": "Demon momentum decays to zero over the optimisation", "statement": "For a new DemonSGD or DemonAdam object with initial momentum in (0,1), the momentum used by the updates of an Optimize() that is not stopped early falls strictly from its initial value and reaches zero when the optimisation ends; a later Optimize() of the same object uses momentum in [0, initial]; every documented maxIterations (0: no limit) is accepted.", "quantifier": "all separable functions, batch sizes, iteration limits, initial momenta, starting points, decay policies and inner Adam rules", "why_tests_cant": "tests run a few functions to a tolerance; the momentum value is not observable in the API and no test reaches the end of the schedule or calls Optimize() twice", "anchors": [{"file": "include/ensmallen_bits/demon_sgd/demon_sgd.hpp", "symbols": ["DemonSGD"]}, {"file": "include/ensmallen_bits/demon_sgd/demon_sgd_update.hpp", "symbols": ["DemonSGDUpdate", "Policy::Update"]}, {"file": "include/ensmallen_bits/demon_adam/demon_adam.hpp", "symbols": ["DemonAdamType"]}, {"file": "include/ensmallen_bits/demon_adam/demon_adam_update.hpp", "symbols": ["DemonAdamUpdate", "Policy::Update"]}]}
{"id": "C240", "title": "AdaBound accessors read and set the parameter they name", "statement": "After any sequence of assignments through FinalLr(), Gamma(), Epsilon(), Beta1() and Beta2() of AdaBound or AMSBound, each accessor reads the value last assigned through it, or else that of the constructor, and the next optimisation uses these values.", "quantifier": "all parameter values and all sequences of assignments", "why_tests_cant": "tests set the parameters in the constructor; a sequence of assignments of any length and its effect on the update is outside their reach", "anchors": [{"file": "include/ensmallen_bits/ada_bound/ada_bound_update.hpp", "symbols": ["AdaBoundUpdate", "Gamma", "FinalLr"]}, {"file": "include/ensmallen_bits/ada_bound/ams_bound_update.hpp", "symbols": ["AMSBoundUpdate", "Gamma", "FinalLr"]}, {"file": "include/ensmallen_bits/ada_bound/ada_bound.hpp", "symbols": ["AdaBoundType"]}]}
{"id": "C241", "title": "Polynomial mutation keeps genes within the bounds", "statement": "Mutate of MOEA/D and AGEMOEA is defined for every gene within its bounds, leaves a gene alone or moves it to a point within the bounds that is a monotone function of the draw: the lower bound for draw 0, the gene itself for one half, the upper bound for 1; enforcing the bounds afterwards changes nothing.", "quantifier": "all bounds, genes, distribution indices, rates and draws", "why_tests_cant": "the operator is private and random; tests see only final fronts", "anchors": [{"file": "include/ensmallen_bits/moead/moead_impl.hpp", "symbols": ["Mutate"]}, {"file": "include/ensmallen_bits/agemoea/agemoea_impl.hpp", "symbols": ["Mutate"]}]}
{"id": "C242", "title": "AGEMOEA crossover is simulated binary crossover", "statement": "For two parents within the bounds that differ in every gene, Crossover of AGEMOEA can exchange genes; a child gene is kept from its parent or is one of the two candidates with the spread factors of simulated binary crossover, opposite candidates in the two children, and is within the bounds.", "quantifier": "all parents, bounds, draws, distribution parameters and numbers of genes", "why_tests_cant": "the operator is private and random; a wrong mask or a skipped crossover only changes the quality of the front", "anchors": [{"file": "include/ensmallen_bits/agemoea/agemoea_impl.hpp", "symbols": ["Crossover"]}]}
{"id": "C243", "title": "MOEA/D differential operator respects the bounds", "statement": "A child gene of MOEA/D is the gene of the first parent, the differential step if that is within the bounds, or else a point between the violated bound and the gene of the first parent; after mutation it is within the bounds.", "quantifier": "all parents within the bounds, weights, rates and draws", "why_tests_cant": "the operator is inside Optimize() and random; the final clamping hides violations from tests", "anchors": [{"file": "include/ensmallen_bits/moead/moead_impl.hpp", "symbols": ["Optimize", "Mutate"]}]}
{"id": "C244", "title": "H\u00f6lder table and Cross-in-Tray have the documented values and minima", "statement": "HolderTableFunction and CrossInTrayFunction evaluate the documented formulas, and have a minimum (no domain is documented) that is attained at all four documented points, which differ only in signs.", "quantifier": "all coordinates", "why_tests_cant": "tests only check that an optimiser reaches a documented point from a given start; a global minimum quantifies over the plane", "anchors": [{"file": "include/ensmallen_bits/problems/holder_table_function_impl.hpp", "symbols": ["HolderTableFunction::Evaluate"]}, {"file": "include/ensmallen_bits/problems/cross_in_tray_function_impl.hpp", "symbols": ["CrossInTrayFunction::Evaluate"]}, {"file": "include/ensmallen_bits/problems/cross_in_tray_function.hpp", "symbols": ["CrossInTrayFunction"]}]}
{"id": "C245", "title": "Schaffer function N.4: lower bound, symmetry and minimisers", "statement": "SchafferFunctionN4 is bounded below by cos(1)^2, is symmetric in its coordinates and their signs, and its minimisers are exactly the two documented points.", "quantifier": "all coordinates", "why_tests_cant": "a bound over the plane and the set of all minimisers are not settled by evaluations", "anchors": [{"file": "include/ensmallen_bits/problems/schaffer_function_n4_impl.hpp", "symbols": ["SchafferFunctionN4::Evaluate"]}, {"file": "include/ensmallen_bits/problems/schaffer_function_n4.hpp", "symbols": ["SchafferFunctionN4"]}]}
{"id": "C246", "title": "A class with the documented methods works with every optimizer listed for its kind", "statement": "For each kind of function in doc/function_types.md (arbitrary, differentiable, partially differentiable, separable, differentiable separable, sparse, constrained) a class that implements the documented methods, in any of the allowed forms, can be passed to Optimize of every optimizer listed for that kind; in particular either Evaluate and Gradient or EvaluateWithGradient is enough.", "quantifier": "all classes (any combination of non-const, const and static declarations of every method) and all optimizers", "why_tests_cant": "a failure shows at compile time only for the combination that is instantiated; the tests instantiate each optimizer with a few bundled classes that have all methods", "anchors": [{"file": "include/ensmallen_bits/function/static_checks.hpp", "symbols": ["CheckSeparableFunctionTypeAPI", "CheckSparseFunctionTypeAPI", "CheckResolvableFunctionTypeAPI"]}, {"file": "include/ensmallen_bits/svrg/svrg_impl.hpp", "symbols": ["SVRGType::Optimize"]}, {"file": "include/ensmallen_bits/iqn/iqn_impl.hpp", "symbols": ["IQN::Optimize"]}, {"file": "include/ensmallen_bits/sgdr/snapshot_sgdr_impl.hpp", "symbols": ["SnapshotSGDR::Optimize"]}]}
{"id": "C247", "title": "A class accepted by the checks of an optimizer has every method it calls", "statement": "If all static assertions of an optimizer about the user class hold, then every method its Optimize calls on the class (or on Function<...> around it) exists.", "quantifier": "all classes and all optimizers", "why_tests_cant": "needs every class that passes the checks, not the few of the tests", "anchors": [{"file": "include/ensmallen_bits/function/static_checks.hpp", "symbols": ["CheckArbitrarySeparableFunctionTypeAPI", "CheckSparseFunctionTypeAPI"]}, {"file": "include/ensmallen_bits/cmaes/cmaes_impl.hpp", "symbols": ["CMAES::Optimize"]}, {"file": "include/ensmallen_bits/parallel_sgd/parallel_sgd_impl.hpp", "symbols": ["ParallelSGD::Optimize"]}]}
{"id": "C248", "title": "PrimalDualSolver does not throw for linearly independent constraints", "statement": "If the constraint matrices are symmetric and linearly independent and the starting points X and Z are positive definite, the linear systems for the search directions have a solution, so Optimize does not throw std::logic_error in SolveKKTSystem.", "quantifier": "all programs over the reals, all positive definite X and Z, all right hand sides", "why_tests_cant": "singular systems occur only for particular pairs of iterates; the tests run a few programs", "anchors": [{"file": "include/ensmallen_bits/sdp/primal_dual_impl.hpp", "symbols": ["SolveKKTSystem", "PrimalDualSolver::Optimize"]}]}
{"id": "C249", "title": "HasLinearlyIndependentConstraints decides linear independence", "statement": "SDP::HasLinearlyIndependentConstraints() returns true if and only if the constraint matrices are linearly independent, for every program.", "quantifier": "all programs with symmetric constraint matrices (over the reals), for every correct singular value decomposition", "why_tests_cant": "the set of programs is infinite; the function has no test", "anchors": [{"file": "include/ensmallen_bits/sdp/sdp_impl.hpp", "symbols": ["SDP::HasLinearlyIndependentConstraints"]}, {"file": "include/ensmallen_bits/sdp/lin_alg.hpp", "symbols": ["Svec"]}]}
{"id": "C250", "title": "Momentum methods on the whole sum drive the gradient to zero", "statement": "For a smooth function (gradient Lipschitz with constant L) that is bounded below, Optimize of StandardSGD, MomentumSGD, NesterovMomentumSGD and QHSGD with batches that cover all functions ends, if given enough iterations, at coordinates with arbitrarily small gradient, for step sizes below the documented-by-theory limits (2/L; 2(1-momentum)/L; 1/L for convex functions; 2/L).", "quantifier": "all dimensions, all smooth functions, all starting points, all parameters in the ranges", "why_tests_cant": "a limit statement over all smooth functions; tests run a few functions for a fixed number of iterations", "anchors": [{"file": "include/ensmallen_bits/sgd/sgd_impl.hpp", "symbols": ["SGD::Optimize"]}, {"file": "include/ensmallen_bits/sgd/update_policies/momentum_update.hpp", "symbols": ["MomentumUpdate"]}, {"file": "include/ensmallen_bits/sgd/update_policies/nesterov_momentum_update.hpp", "symbols": ["NesterovMomentumUpdate"]}, {"file": "include/ensmallen_bits/sgd/update_policies/quasi_hyperbolic_update.hpp", "symbols": ["QHUpdate"]}]}
{"id": "C251", "title": "AdaGrad and WNGrad converge without tuning of the step size", "statement": "For a smooth function that is bounded below, Optimize of AdaGrad and WNGrad with batches that cover all functions ends, if given enough iterations, at coordinates with arbitrarily small gradient, for every positive step size.", "quantifier": "all dimensions, all smooth functions whatever their Lipschitz constant, all starting points, all step sizes", "why_tests_cant": "a limit statement over all smooth functions and all step sizes", "anchors": [{"file": "include/ensmallen_bits/ada_grad/ada_grad_update.hpp", "symbols": ["AdaGradUpdate"]}, {"file": "include/ensmallen_bits/wn_grad/wn_grad_update.hpp", "symbols": ["WNGradUpdate"]}, {"file": "include/ensmallen_bits/sgd/sgd_impl.hpp", "symbols": ["SGD::Optimize"]}]}
{"id": "C252", "title": "Coordinate descent on smooth functions", "statement": "On a function with L-Lipschitz gradient, CD with step size at most 2/L never ends above its start, whatever the descent policy picks; with CyclicDescent (or any policy that picks every column within a bounded number of iterations) and a step size below 2/L the gradient tends to zero, at an explicit rate, geometrically for strongly convex functions; the same is expected of GreedyDescent.", "quantifier": "all numbers of columns, all smooth functions, all starting points, all step sizes in the range, all iteration limits", "why_tests_cant": "limits and rates over all smooth functions; a test runs one function for a fixed number of iterations", "anchors": [{"file": "include/ensmallen_bits/cd/cd_impl.hpp", "symbols": ["CD::Optimize"]}, {"file": "include/ensmallen_bits/cd/descent_policies/cyclic_descent.hpp", "symbols": ["CyclicDescent::DescentFeature"]}, {"file": "include/ensmallen_bits/cd/descent_policies/greedy_descent.hpp", "symbols": ["GreedyDescent::DescentFeature"]}]}
{"id": "C253", "title": "Regret of StandardSGD", "statement": "On a sum of n convex functions with (sub)gradients of length at most G, with or without shuffling and however the run ends, the mean losses that SGD with the vanilla update reports to EndEpoch exceed the mean loss of any point z on average over the E epochs by at most |x-z|^2/(2 a n E) + a b G^2/2 (a step size, b batch size), also with callbacks that project the coordinates onto a convex set containing z.", "quantifier": "all dimensions, all convex functions, all batch sizes, orders, starting points, comparison points, callbacks", "why_tests_cant": "a worst-case bound over all convex functions and all orders of visiting them", "anchors": [{"file": "include/ensmallen_bits/sgd/sgd_impl.hpp", "symbols": ["SGD::Optimize"]}, {"file": "include/ensmallen_bits/sgd/update_policies/vanilla_update.hpp", "symbols": ["VanillaUpdate"]}]}
{"id": "C254", "title": "Regret of AdaGrad", "statement": "On a sum of n convex functions with bounded (sub)gradients and with callbacks that clip the coordinates to a box, the mean losses that AdaGrad reports to EndEpoch exceed the mean loss of any point z of the box on average by a bound of order 1/sqrt(number of epochs), for every step size.", "quantifier": "all dimensions, all convex functions, all batch sizes, orders, starting points, comparison points, step sizes", "why_tests_cant": "a worst-case bound over all convex functions and all orders of visiting them", "anchors": [{"file": "include/ensmallen_bits/ada_grad/ada_grad_update.hpp", "symbols": ["AdaGradUpdate"]}, {"file": "include/ensmallen_bits/sgd/sgd_impl.hpp", "symbols": ["SGD::Optimize"]}]}
{"id": "C255", "title": "RMSProp on smooth functions", "statement": "RMSProp with batches that cover all functions drives the gradient of a smooth function that is bounded below to zero.", "quantifier": "all dimensions, all smooth functions, all starting points, all parameters", "why_tests_cant": "a limit statement over all smooth functions", "anchors": [{"file": "include/ensmallen_bits/rmsprop/rmsprop_update.hpp", "symbols": ["RMSPropUpdate"]}, {"file": "include/ensmallen_bits/sgd/sgd_impl.hpp", "symbols": ["SGD::Optimize"]}]}
{"id": "C256", "title": "L-BFGS on strongly convex functions", "statement": "On a strongly convex function with Lipschitz gradient: when L-BFGS stops because the gradient norm is below minGradientNorm, the returned point is within minGradientNorm^2/(2 mu) of the minimum value and within minGradientNorm/mu of the minimiser; if the line searches end with a step meeting the strong Wolfe conditions that is the best one tried, the objective converges linearly at a rate that depends only on the constants, the run ends by itself, and the number of iterations is logarithmic in the tolerance. On any function, such a stop means that the gradient at the returned point is below minGradientNorm.", "quantifier": "all dimensions, all strongly convex smooth functions, all starting points, parameters, memory sizes, callbacks that may ask to stop", "why_tests_cant": "rates over all functions of a class; a test runs a few functions", "anchors": [{"file": "include/ensmallen_bits/lbfgs/lbfgs_impl.hpp", "symbols": ["L_BFGS::Optimize", "L_BFGS::LineSearch", "L_BFGS::SearchDirection", "L_BFGS::ChooseScalingFactor", "L_BFGS::UpdateBasisSet"]}]}
{"id": "C257", "title": "Tolerance of gradient descent", "statement": "With a step size of at most 1/L on a function with L-Lipschitz gradient that is bounded below, the tolerance test ends GradientDescent after at most (f(x0) - inf f)/tolerance + 2 evaluations; if the function is mu-strongly convex the objective converges linearly and a return by the tolerance test is within tolerance/(stepSize mu) of the minimum. In general a return by the tolerance test is within some multiple of the tolerance of the minimum.", "quantifier": "all dimensions, all smooth functions, all starting points, step sizes in the range, tolerances, iteration limits, callbacks that may ask to stop", "why_tests_cant": "a worst-case bound over all smooth functions", "anchors": [{"file": "include/ensmallen_bits/gradient_descent/gradient_descent_impl.hpp", "symbols": ["GradientDescent::Optimize"]}]}
{"id": "C258", "title": "AMSGrad and Padam: average loss on a sum of convex functions", "statement": "With AMSGrad (or Padam with exponent at most 1/2), beta1 and beta2 in [0, 1), epsilon > 0, on a sum of convex functions with bounded gradients, and a callback that clips the coordinates to a box: the mean losses reported at the ends of the epochs exceed the mean loss of any point of the box, on average over E epochs, by at most a constant divided by the step size times E plus a constant times the step size; both constants are explicit.", "quantifier": "every dimension, number of functions, batch size, order (Shuffle), step size, start in the box, number of epochs; however the run ends", "why_tests_cant": "a bound for all convex sums and all run lengths", "anchors": [{"file": "include/ensmallen_bits/adam/amsgrad_update.hpp", "symbols": ["AMSGradUpdate::Policy::Update"]}, {"file": "include/ensmallen_bits/padam/padam_update.hpp", "symbols": ["PadamUpdate::Policy::Update"]}, {"file": "include/ensmallen_bits/sgd/sgd_impl.hpp", "symbols": ["SGD::Optimize"]}]}
{"id": "C259", "title": "Small step sizes lead close to the minimum on average", "statement": "On a sum of convex functions with bounded gradients, with a callback that clips the coordinates to a box, small step sizes and enough epochs bring the mean losses reported at the ends of the epochs, on average, as close as wanted to the mean loss of the best point of the box: for StandardSGD, AdaGrad, AMSGrad, Padam, Adam and RMSProp.", "quantifier": "every such sum, every box, start and order of the functions, every required accuracy", "why_tests_cant": "a limit over all step sizes and run lengths; the failure of Adam and RMSProp needs many functions and shows only over whole epochs", "anchors": [{"file": "include/ensmallen_bits/adam/adam_update.hpp", "symbols": ["AdamUpdate::Policy::Update"]}, {"file": "include/ensmallen_bits/rmsprop/rmsprop_update.hpp", "symbols": ["RMSPropUpdate::Policy::Update"]}, {"file": "include/ensmallen_bits/adam/amsgrad_update.hpp", "symbols": ["AMSGradUpdate::Policy::Update"]}, {"file": "include/ensmallen_bits/ada_grad/ada_grad_update.hpp", "symbols": ["AdaGradUpdate::Policy::Update"]}, {"file": "include/ensmallen_bits/sgd/sgd_impl.hpp", "symbols": ["SGD::Optimize"]}]}
{"id": "C260", "title": "Momentum methods: average loss on a sum of convex functions", "statement": "With MomentumSGD, NesterovMomentumSGD (momentum in [0, 1)) or QHSGD (both weights in range) on a sum of convex functions with bounded gradients, where callbacks may project the coordinates onto a convex set after every step: the mean losses reported at the ends of the epochs exceed the mean loss of any point of the set, on average over E epochs, by at most a constant divided by the step size times E plus a constant times the step size; both constants are explicit. So small step sizes and enough epochs lead as close to the minimum as wanted, on average.", "quantifier": "every dimension, number of functions, batch size, order (Shuffle), convex set, step size, start, number of epochs; however the run ends", "why_tests_cant": "a bound for all convex sums and all run lengths", "anchors": [{"file": "include/ensmallen_bits/sgd/update_policies/momentum_update.hpp", "symbols": ["MomentumUpdate::Policy::Update"]}, {"file": "include/ensmallen_bits/sgd/update_policies/nesterov_momentum_update.hpp", "symbols": ["NesterovMomentumUpdate::Policy::Update"]}, {"file": "include/ensmallen_bits/sgd/update_policies/quasi_hyperbolic_update.hpp", "symbols": ["QHUpdate::Policy::Update"]}, {"file": "include/ensmallen_bits/sgd/sgd_impl.hpp", "symbols": ["SGD::Optimize"]}]}
{"id": "C261", "title": "Small step sizes lead close to the minimum on average: the rest of the Adam family", "statement": "The claim of C259 for AdaMax, Nadam, NadaMax, QHAdam, AdaBelief and OptimisticAdam: on a sum of convex functions with bounded gradients, with a callback that clips the coordinates to a box, small step sizes and enough epochs bring the mean losses reported at the ends of the epochs, on average, as close as wanted to the mean loss of the best point of the box.", "quantifier": "every such sum, every box, start and order of the functions, every required accuracy", "why_tests_cant": "a limit over all step sizes and run lengths; the failure needs many functions and shows only over whole epochs", "anchors": [{"file": "include/ensmallen_bits/adam/adamax_update.hpp", "symbols": ["AdaMaxUpdate::Policy::Update"]}, {"file": "include/ensmallen_bits/adam/nadam_update.hpp", "symbols": ["NadamUpdate::Policy::Update"]}, {"file": "include/ensmallen_bits/adam/nadamax_update.hpp", "symbols": ["NadaMaxUpdate::Policy::Update"]}, {"file": "include/ensmallen_bits/adam/optimisticadam_update.hpp", "symbols": ["OptimisticAdamUpdate::Policy::Update"]}, {"file": "include/ensmallen_bits/qhadam/qhadam_update.hpp", "symbols": ["QHAdamUpdate::Policy::Update"]}, {"file": "include/ensmallen_bits/ada_belief/ada_belief_update.hpp", "symbols": ["AdaBeliefUpdate::Policy::Update"]}, {"file": "include/ensmallen_bits/sgd/sgd_impl.hpp", "symbols": ["SGD::Optimize"]}]}
{"id": "C262", "title": "SVRG on sums of smooth functions", "statement": "For SVRG with a constant step size a on a sum of n functions whose gradients have the Lipschitz constant L, with m inner iterations and m a L <= 1/4: the coordinates returned never have a larger objective than the start, however the run ends; when the tolerance test ends the run after at least one pass, the squared norm of the gradient of the objective is at most 4 n b tolerance / (m a) (b the batch size); the number of passes is at most 1 + (objective at the start - lower bound) / tolerance, so the run ends even without an iteration limit; and when the objective is strongly convex (constant n mu), the distance from the minimum shrinks by the factor 1 - m a mu / b with every pass of a run not stopped by a callback.", "quantifier": "every dimension, number of functions, batch size, order (Shuffle), start, callbacks that leave coordinates and gradients alone", "why_tests_cant": "a bound for all smooth sums, orders of the functions and run lengths", "anchors": [{"file": "include/ensmallen_bits/svrg/svrg_impl.hpp", "symbols": ["SVRGType::Optimize"]}, {"file": "include/ensmallen_bits/svrg/svrg_update.hpp", "symbols": ["SVRGUpdate::Policy::Update"]}]}
{"id": "C263", "title": "SARAH and SARAH+ on sums of smooth functions", "statement": "For SARAH and SARAH+ with the step size a on a sum of n functions whose gradients have the Lipschitz constant L, with m inner iterations and (m + 1) a L <= 1/4: the coordinates returned never have a larger objective than the start, however the run ends; when the tolerance test ends the run after at least one pass, the squared norm of the gradient of the objective is at most 4 n tolerance / a; the number of passes is at most 1 + (objective at the start - lower bound) / tolerance, so the run ends even without an iteration limit; and when the objective is strongly convex (constant n mu), the distance from the minimum shrinks by the factor 1 - a mu with every pass, and for SARAH not stopped by a callback by 1 - (1 + m / b) a mu.", "quantifier": "every dimension, number of functions, batch size, order (Shuffle), start, gamma of SARAH+, callbacks that leave coordinates and gradients alone", "why_tests_cant": "a bound for all smooth sums, orders of the functions and run lengths", "anchors": [{"file": "include/ensmallen_bits/sarah/sarah_impl.hpp", "symbols": ["SARAHType::Optimize"]}, {"file": "include/ensmallen_bits/sarah/sarah_update.hpp", "symbols": ["SARAHUpdate::Update"]}, {"file": "include/ensmallen_bits/sarah/sarah_plus_update.hpp", "symbols": ["SARAHPlusUpdate::Update"]}]}
{"id": "C264", "title": "Weights and learning rates of CMA-ES", "statement": "For every dimension and every population size of at least two (four for ActiveCMAES) the constants a run computes are in the ranges the algorithm needs: the recombination weights are positive, strictly decreasing with the rank (equal for ActiveCMAES) and sum to one, the effective number of parents lies between one and the number of parents, the decay rates of the evolution paths lie strictly between 0 and 1, the damping exceeds 1, and the covariance learning rates are nonnegative with a sum of at most one.", "quantifier": "all dimensions and population sizes", "why_tests_cant": "infinitely many combinations of dimension and population size", "anchors": [{"file": "include/ensmallen_bits/cmaes/cmaes_impl.hpp", "symbols": ["CMAES::Optimize"]}, {"file": "include/ensmallen_bits/cmaes/active_cmaes_impl.hpp", "symbols": ["ActiveCMAES::Optimize"]}]}
{"id": "C265", "title": "The covariance matrix of CMA-ES stays positive semidefinite", "statement": "In every generation of every run of CMAES and ActiveCMAES, whatever the objective, callbacks, policies and random numbers: the covariance matrix is symmetric positive semidefinite and the step size is positive; the Cholesky loop ends after at most one addition of epsilon, made only when the matrix is singular, with a factor of the positive definite matrix then in use. For CMAES the matrix computed at the end of a generation is positive semidefinite, so the repair of negative eigenvalues never changes it.", "quantifier": "all dimensions, population sizes, objectives, callbacks, policies, random numbers and numbers of generations", "why_tests_cant": "a test sees a few runs; positive definiteness is an invariant over all random numbers", "anchors": [{"file": "include/ensmallen_bits/cmaes/cmaes_impl.hpp", "symbols": ["CMAES::Optimize"]}, {"file": "include/ensmallen_bits/cmaes/active_cmaes_impl.hpp", "symbols": ["ActiveCMAES::Optimize"]}]}
{"id": "C266", "title": "The mean of CMA-ES is the weighted average of the best offspring", "statement": "The new mean of a generation of CMAES is the weighted average, with positive weights that decrease with the rank and sum to one, of the positions of the lambda/2 offspring with the smallest objectives; for ActiveCMAES it is the plain average of the positions of the lambda/4 best.", "quantifier": "all dimensions, population sizes, states, objectives (ties included) and random numbers", "why_tests_cant": "a claim for all orders of all populations", "anchors": [{"file": "include/ensmallen_bits/cmaes/cmaes_impl.hpp", "symbols": ["CMAES::Optimize"]}, {"file": "include/ensmallen_bits/cmaes/active_cmaes_impl.hpp", "symbols": ["ActiveCMAES::Optimize"]}]}
{"id": "C267", "title": "The step-size path of CMA-ES does not depend on the scale of the covariance matrix", "statement": "As in the publication cited by the documentation, what a generation adds to the evolution path of the step size has the length of the average of the selected standard normal vectors (times the constant of the path), whatever the covariance matrix, so that the step size is compared with the expected length of a standard normal vector.", "quantifier": "all runs, states and random numbers", "why_tests_cant": "the tests only check that the result is good; a wrong normalisation shows in the rate of convergence, not in the result of easy runs", "anchors": [{"file": "include/ensmallen_bits/cmaes/cmaes_impl.hpp", "symbols": ["CMAES::Optimize"]}, {"file": "include/ensmallen_bits/cmaes/active_cmaes_impl.hpp", "symbols": ["ActiveCMAES::Optimize"]}]}
{"id": "C268", "title": "CMA-ES depends only on the order of objective values, not on origin or unit of length", "statement": "With tolerance zero and the same random numbers, runs of CMAES and ActiveCMAES on f and on g(f(.)), g strictly increasing, evaluate the same points in the same order, stop for the same reason and return the same coordinates; the run on the shifted function from the shifted start is the shifted run; the run on the function scaled in its argument, from the scaled start with the scaled step size, is the scaled run unless a guard against step sizes above 1e14 ends one of them.", "quantifier": "all objectives, increasing transformations, shifts, scales, dimensions, population sizes, random numbers and run lengths", "why_tests_cant": "relates pairs of whole runs on infinitely many functions", "anchors": [{"file": "include/ensmallen_bits/cmaes/cmaes_impl.hpp", "symbols": ["CMAES::Optimize"]}, {"file": "include/ensmallen_bits/cmaes/active_cmaes_impl.hpp", "symbols": ["ActiveCMAES::Optimize"]}]}
{"id": "C269", "title": "ActiveCMAES removes only unfavourable directions", "statement": "When the update of the covariance matrix in ActiveCMAES (or CMAES) gives a matrix with negative eigenvalues, the repair removes those directions and keeps the variance of all directions with a nonnegative eigenvalue.", "quantifier": "all runs, states and random numbers", "why_tests_cant": "negative eigenvalues need unusual random numbers; the result only gets slower", "anchors": [{"file": "include/ensmallen_bits/cmaes/active_cmaes_impl.hpp", "symbols": ["ActiveCMAES::Optimize"]}, {"file": "include/ensmallen_bits/cmaes/cmaes_impl.hpp", "symbols": ["CMAES::Optimize"]}]}
{"id": "C270", "title": "CMA-ES accepts matrix-shaped coordinates", "statement": "CMAES and ActiveCMAES can be run on coordinates of every shape, as other optimizers.", "quantifier": "all numbers of rows and columns", "why_tests_cant": "tests use column vectors", "anchors": [{"file": "include/ensmallen_bits/cmaes/cmaes_impl.hpp", "symbols": ["CMAES::Optimize"]}, {"file": "include/ensmallen_bits/cmaes/active_cmaes_impl.hpp", "symbols": ["ActiveCMAES::Optimize"]}]}
{"id": "C271", "title": "CMA-ES works with every population size", "statement": "A run of CMAES with any population size accepted by the constructor ends without an exception.", "quantifier": "all population sizes, objectives, callbacks, policies and random numbers", "why_tests_cant": "a finite number of tests covers finitely many population sizes and runs", "anchors": [{"file": "include/ensmallen_bits/cmaes/cmaes_impl.hpp", "symbols": ["CMAES::Optimize"]}, {"file": "include/ensmallen_bits/cmaes/active_cmaes_impl.hpp", "symbols": ["ActiveCMAES::Optimize"]}]}
{"id": "C272", "title": "DE depends only on the order of objective values and moves with the origin", "statement": "With the same random numbers and tolerance zero, runs of DE on f and on g(f(.)), g strictly increasing and infinity kept, visit the same populations, take the same decisions and return the same coordinates; a run on the shifted function from the shifted start is the shifted run.", "quantifier": "all objectives, increasing transformations, shifts, dimensions, parameters, random numbers and run lengths", "why_tests_cant": "relates pairs of whole runs on infinitely many functions", "anchors": [{"file": "include/ensmallen_bits/de/de_impl.hpp", "symbols": ["DE::Optimize"]}]}
{"id": "C273", "title": "CNE depends only on the order of objective values and moves with the origin", "statement": "With the same random numbers and tolerance zero, runs of CNE on f and on g(f(.)), g strictly increasing and infinity kept, visit the same populations, take the same decisions and return the same coordinates; a run on the shifted function from the shifted start is the shifted run.", "quantifier": "all objectives, increasing transformations, shifts, dimensions, parameters, random numbers and run lengths", "why_tests_cant": "relates pairs of whole runs on infinitely many functions", "anchors": [{"file": "include/ensmallen_bits/cne/cne_impl.hpp", "symbols": ["CNE::Optimize", "CNE::Reproduce", "CNE::Crossover", "CNE::Mutate"]}]}
{"id": "C274", "title": "PSO depends only on the order of objective values and moves with the origin", "statement": "With the same random numbers and an improvement tolerance of at most zero, runs of LBestPSO on f and on g(f(.)), g strictly increasing, move all particles alike and return the same coordinates; a run on the shifted function with shifted bounds is the shifted run.", "quantifier": "all objectives, increasing transformations, shifts, dimensions, parameters, random numbers and run lengths", "why_tests_cant": "relates pairs of whole runs on infinitely many functions", "anchors": [{"file": "include/ensmallen_bits/pso/pso_impl.hpp", "symbols": ["PSOType::Optimize"]}, {"file": "include/ensmallen_bits/pso/update_policies/lbest_update.hpp", "symbols": ["LBestUpdate"]}, {"file": "include/ensmallen_bits/pso/init_policies/default_init.hpp", "symbols": ["DefaultInit"]}]}
{"id": "C275", "title": "Simulated annealing is invariant under shifts of the argument and affine changes of the objective", "statement": "With the same random numbers, a run of SA on a * f(x - t) + c (a > 0) from the shifted start, with initial temperature and tolerance multiplied by a, tries and accepts the same moves as the run on f: all coordinates are shifted by t and the run ends at the same time for the same reason.", "quantifier": "all objectives, factors, constants, shifts, dimensions, parameters, random numbers and run lengths", "why_tests_cant": "relates pairs of whole runs on infinitely many functions", "anchors": [{"file": "include/ensmallen_bits/sa/sa_impl.hpp", "symbols": ["SA::Optimize", "SA::GenerateMove", "SA::MoveControl"]}]}
{"id": "C276", "title": "A stop request during ParallelSGD is not lost", "statement": "If a callback called by some thread of a round of ParallelSGD asks to stop, no further round is made.", "quantifier": "all numbers of threads, answers of callbacks and interleavings", "why_tests_cant": "the loss of a request needs an unlucky interleaving of two threads; tests run few of them", "anchors": [{"file": "include/ensmallen_bits/parallel_sgd/parallel_sgd_impl.hpp", "symbols": ["ParallelSGD::Optimize"]}]}
{"id": "C277", "title": "Lookahead inherits descent and linear convergence from its base optimizer", "statement": "On a convex objective, with a step size between 0 and 1 and no decay: if the base optimizer never increases the objective, the coordinates returned by Lookahead have an objective of at most that of the starting point; if every run of the base optimizer reduces the distance to the infimum by a factor q, n synchronisations reduce it by the factor (1 - stepSize + stepSize * q)^n.", "quantifier": "all convex objectives, base optimizers, step sizes, starting points and run lengths", "why_tests_cant": "a rate for all convex functions and all inner optimizers", "anchors": [{"file": "include/ensmallen_bits/lookahead/lookahead_impl.hpp", "symbols": ["Lookahead::Optimize"]}]}
{"id": "C278", "title": "Training logistic regression with gradient descent, SGD and SVRG", "statement": "On LogisticRegressionFunction with 0/1 labels and lambda >= 0: the objective is convex with Lipschitz gradient, constant lambda + sum (1 + |x_i|^2)/4; for lambda > 0 a minimiser exists exactly if both classes occur, and is then unique; GradientDescent with step size up to the inverse of that constant descends, converges at rate 1/k and makes at most f(x0)/tolerance + 2 evaluations; StandardSGD with lambda = 0 has average epoch loss within |x0 - z|^2/(2 stepSize n epochs) + stepSize batchSize (1 + max |x_i|^2)/2 of that of any z, whatever the shuffling; SVRG with a small step size terminates without iteration limit at parameters not worse than the initial ones.", "quantifier": "all data sets, dimensions, labels, penalties, starting points, step sizes within the bounds, orderings drawn and run lengths", "why_tests_cant": "quantifies over all data sets and over runs of unbounded length", "anchors": [{"file": "include/ensmallen_bits/problems/logistic_regression_function_impl.hpp", "symbols": ["LogisticRegressionFunction::Evaluate", "LogisticRegressionFunction::Gradient", "LogisticRegressionFunction::Shuffle"]}, {"file": "include/ensmallen_bits/gradient_descent/gradient_descent_impl.hpp", "symbols": ["GradientDescent::Optimize"]}, {"file": "include/ensmallen_bits/sgd/sgd_impl.hpp", "symbols": ["SGD::Optimize"]}, {"file": "include/ensmallen_bits/svrg/svrg_impl.hpp", "symbols": ["SVRGType::Optimize"]}]}
{"id": "C279", "title": "What AugLagrangian finds when its inner runs succeed", "statement": "If the constrained problem has Lagrange multipliers l* (Saddle point) and every inner L-BFGS run minimises the augmented Lagrangian up to delta/sigma, then at every update lambda is not further from l* than initially, the violation of the constraints is at most 2|lambda0 - l*|/sigma, and the objective is within O(1/sigma) of the optimum; when true is returned these hold with sigma = 500000; the violation becomes arbitrarily small as the outer loop goes on.", "quantifier": "all constrained problems with multipliers (convex or not), inner solvers, callbacks, initial multipliers, penalty parameters and run lengths", "why_tests_cant": "quantifies over all problems with multipliers and unboundedly long runs", "anchors": [{"file": "include/ensmallen_bits/aug_lagrangian/aug_lagrangian_impl.hpp", "symbols": ["AugLagrangian::Optimize"]}, {"file": "include/ensmallen_bits/aug_lagrangian/aug_lagrangian_function_impl.hpp", "symbols": ["AugLagrangianFunction::Evaluate"]}]}
{"id": "C280", "title": "OMP recovers sparse vectors", "statement": "For a dictionary (columns of MatrixA) of unit columns with coherence mu and b = A z + error, z with k nonzero entries, (2k-1) mu < 1 and tolerance above a multiple of the correlation eps of the error with the columns: OMP from 0 never puts a nonzero entry outside the support of z, with or without pruning; without pruning it ends after at most k steps; the coordinates returned are within (tol+eps)/(1-(k-1)mu) of z entrywise; if the entries of z are not smaller than that the support is found exactly, and without error the coordinates returned are z itself.", "quantifier": "all dictionaries, sparse vectors, errors, tolerances, callbacks and run lengths", "why_tests_cant": "quantifies over all real dictionaries, all sparse vectors and all errors", "anchors": [{"file": "include/ensmallen_bits/fw/frank_wolfe_impl.hpp", "symbols": ["FrankWolfe::Optimize"]}, {"file": "include/ensmallen_bits/fw/update_span.hpp", "symbols": ["UpdateSpan::Update"]}, {"file": "include/ensmallen_bits/fw/constr_lpball.hpp", "symbols": ["ConstrLpBallSolver::Optimize"]}, {"file": "include/ensmallen_bits/fw/func_sq.hpp", "symbols": ["FuncSq"]}]}
{"id": "C281", "title": "NSGA2 does not depend on the units of the objectives", "statement": "Replacing objective k by a_k f_k + c_k with a_k > 0 (a different factor and shift for every objective) changes neither the populations of any generation of NSGA2 nor its fronts, Pareto set and returned coordinates; the values in the Pareto front are mapped accordingly. Increasing maps of other shapes can change the populations.", "quantifier": "all objectives, factors, shifts, random sources, population sizes and numbers of generations; callbacks that ignore objective values", "why_tests_cant": "relates two executions for every function, factor and seed", "anchors": [{"file": "include/ensmallen_bits/nsga2/nsga2_impl.hpp", "symbols": ["NSGA2::Optimize", "NSGA2::CrowdingDistanceAssignment", "NSGA2::Dominates"]}]}
{"id": "C282", "title": "MOEA/D under changes of the objectives", "statement": "Replacing every objective f_k by a f_k + c_k with one common a > 0 and any shifts changes neither the populations of MOEA/D nor the coordinates returned, for the Tchebycheff, weighted average and PBI decompositions; ideal point and Pareto front are mapped accordingly. With factors that differ between objectives the populations change.", "quantifier": "all objectives with values below the largest number, factors, shifts, weights, random sources and parameters; callbacks that ignore objective values", "why_tests_cant": "relates two executions for every function, factor and seed", "anchors": [{"file": "include/ensmallen_bits/moead/moead_impl.hpp", "symbols": ["MOEAD::Optimize"]}, {"file": "include/ensmallen_bits/moead/decomposition_policies/tchebycheff_decomposition.hpp", "symbols": ["Tchebycheff::Apply"]}, {"file": "include/ensmallen_bits/moead/decomposition_policies/weighted_decomposition.hpp", "symbols": ["WeightedAverage::Apply"]}, {"file": "include/ensmallen_bits/moead/decomposition_policies/pbi_decomposition.hpp", "symbols": ["PenaltyBoundaryIntersection::Apply"]}]}
{"id": "C283", "title": "Numbering, sign and origin of the coordinates do not matter to SGD", "statement": "With every coordinatewise update policy of SGD (vanilla, momentum, Nesterov, quasi-hyperbolic, symmetric gradient clipping of any of these, Adam, AdaMax, AMSGrad, Padam, Nadam, NadaMax, OptimisticAdam, AdaBelief, AdaBound, AMSBound, AdaDelta, AdaGrad, AdaSqrt, RMSProp, SMORMS3, Yogi, QHAdam), a run on the same objective in coordinates that are renumbered, reflected and translated is the image of the original run, event by event: same batches, same values, same reason of the return. FTML, DemonSGD and DemonAdam do not depend on numbering and signs. DemonSGD does depend on the origin: where the objective is constant it multiplies the iterate by the momentum.", "quantifier": "all renumberings, signs and translations, all parameters of the policies, all functions and callbacks that correspond, all runs", "why_tests_cant": "a test in one system of coordinates says nothing about another one; the claim is about pairs of runs", "anchors": [{"file": "include/ensmallen_bits/sgd/sgd_impl.hpp", "symbols": ["Optimize"]}, {"file": "include/ensmallen_bits/adam/adam_update.hpp", "symbols": ["Update"]}, {"file": "include/ensmallen_bits/demon_sgd/demon_sgd_update.hpp", "symbols": ["Update"]}, {"file": "include/ensmallen_bits/smorms3/smorms3_update.hpp", "symbols": ["Update"]}, {"file": "include/ensmallen_bits/sgd/update_policies/gradient_clipping.hpp", "symbols": ["Update"]}]}
{"id": "C284", "title": "Rotating the space does not matter to momentum methods and does matter to adaptive ones", "statement": "With the vanilla, momentum, Nesterov and quasi-hyperbolic updates, SGD on the objective transported by a rotation and a translation of the whole space is the image of the run on the original one. For Adam, AdaGrad and RMSProp that is false for every admissible choice of their parameters, already after one step on a linear function.", "quantifier": "all linear maps and translations, all parameters, all functions and callbacks that correspond, all runs", "why_tests_cant": "no finite set of runs shows equality for all functions; that adaptive methods depend on the axes must be shown for all parameters", "anchors": [{"file": "include/ensmallen_bits/sgd/sgd_impl.hpp", "symbols": ["Optimize"]}, {"file": "include/ensmallen_bits/sgd/update_policies/momentum_update.hpp", "symbols": ["Update"]}, {"file": "include/ensmallen_bits/sgd/update_policies/nesterov_momentum_update.hpp", "symbols": ["Update"]}, {"file": "include/ensmallen_bits/sgd/update_policies/quasi_hyperbolic_update.hpp", "symbols": ["Update"]}, {"file": "include/ensmallen_bits/ada_grad/ada_grad_update.hpp", "symbols": ["Update"]}, {"file": "include/ensmallen_bits/rmsprop/rmsprop_update.hpp", "symbols": ["Update"]}]}
{"id": "C285", "title": "L-BFGS does not depend on the system of coordinates", "statement": "L-BFGS on an objective transported by a map that preserves lengths and angles, followed by a translation, returns the same value for the same reason after the same numbers of iterations and evaluations, and its final coordinates are the image of those of the original run. Adding a constant to the objective, in contrast, can change where it stops, because the test with factr compares the decrease with the size of the objective.", "quantifier": "all distance-preserving maps and translations, all functions and gradients, all parameters, all stored pairs, all callbacks that correspond, exact arithmetic", "why_tests_cant": "a claim about all pairs of corresponding runs", "anchors": [{"file": "include/ensmallen_bits/lbfgs/lbfgs_impl.hpp", "symbols": ["Optimize", "LineSearch", "SearchDirection", "ChooseScalingFactor", "UpdateBasisSet"]}]}
{"id": "C286", "title": "SPSA converges on average on smooth functions", "statement": "On a differentiable function with Lipschitz gradient that is bounded below, SPSA with exponents 0 < alpha < 1 and 0 < gamma, positive step sizes, tolerance 0 and fair independent random signs visits points whose mean squared gradient norm, averaged over all random signs and over the iterations, tends to zero as maxIterations grows; so the probability that a run never meets a point with gradient shorter than a given length tends to zero.", "quantifier": "all dimensions, all smooth functions bounded below, all starting points, all gains in the stated range, all lengths of runs", "why_tests_cant": "an average over all outcomes of the random signs and a limit in the number of iterations, over all smooth functions; a test runs a few seeds on a few functions", "anchors": [{"file": "include/ensmallen_bits/spsa/spsa_impl.hpp", "symbols": ["SPSA::Optimize"]}, {"file": "include/ensmallen_bits/spsa/spsa.hpp", "symbols": ["SPSA"]}]}
{"id": "C287", "title": "NesterovMomentumSGD is the accelerated gradient method", "statement": "On a function with Lipschitz gradient (constant L) that is strongly convex (constant mu), NesterovMomentumSGD over the whole sum with step size 1/L and momentum (1 - sqrt(mu/L)) / (1 + sqrt(mu/L)) returns coordinates whose gap is at most (1 - sqrt(mu/L))^K / sqrt(mu/L) times the initial energy after K epochs, so that the number of epochs for a given accuracy grows like the square root of the condition number. StandardSGD has no such rate, whatever its step size.", "quantifier": "all dimensions, all smooth strongly convex functions, all starting points, all numbers of epochs", "why_tests_cant": "a rate for all functions of a class and all lengths of runs; a test sees one function and one length", "anchors": [{"file": "include/ensmallen_bits/sgd/update_policies/nesterov_momentum_update.hpp", "symbols": ["NesterovMomentumUpdate"]}, {"file": "include/ensmallen_bits/sgd/sgd_impl.hpp", "symbols": ["SGD::Optimize"]}, {"file": "include/ensmallen_bits/sgd/update_policies/vanilla_update.hpp", "symbols": ["VanillaUpdate"]}]}
{"id": "C288", "title": "Frank-Wolfe does not depend on the choice of affine coordinates", "statement": "If objective, gradient and linear solver are expressed in other affine coordinates of the same space (rotated, sheared, rescaled, translated), FrankWolfe with UpdateClassic or UpdateLineSearch makes the same run in the new coordinates: same points, same values, same number of iterations, same reason of the return. For an invertible change of coordinates the transported solver is a linear solver for the transported set. GradientDescent does not have this property.", "quantifier": "all inner product spaces, all linear maps and translations, all objectives, solvers, tolerances and iteration limits, all runs", "why_tests_cant": "an equality of whole runs for all changes of coordinates; tests use one system of coordinates", "anchors": [{"file": "include/ensmallen_bits/fw/frank_wolfe_impl.hpp", "symbols": ["FrankWolfe::Optimize"]}, {"file": "include/ensmallen_bits/fw/update_classic.hpp", "symbols": ["UpdateClassic::Update"]}, {"file": "include/ensmallen_bits/fw/update_linesearch.hpp", "symbols": ["UpdateLineSearch::Update"]}, {"file": "include/ensmallen_bits/fw/line_search/line_search_impl.hpp", "symbols": ["LineSearch::Optimize"]}]}
{"id": "C289", "title": "Gradient descent does not depend on position, orientation or level", "statement": "GradientDescent on an objective transported by a map that preserves distances, with a constant added to it, makes the image of the original run: same reason of the return, same numbers of steps, same stops, coordinates transported, value returned plus the constant. (With maxIterations = 1 nothing is evaluated and the largest number is returned instead.)", "quantifier": "all inner product spaces, all distance-preserving maps, translations and constants, all objectives, step sizes and tolerances, all runs", "why_tests_cant": "an equality of whole runs for all changes of coordinates; tests use one system of coordinates", "anchors": [{"file": "include/ensmallen_bits/gradient_descent/gradient_descent_impl.hpp", "symbols": ["GradientDescent::Optimize"]}]}
{"id": "C290", "title": "Simulated annealing samples the Boltzmann distribution at a fixed temperature", "statement": "With independent uniform draws, one move of SA at temperature T > 0, in any coordinate and with any move size, satisfies detailed balance with respect to the density exp(-f/T): the flow from any set A to any set B equals the flow from B to A. Consequently the initial moves of a run (made at the initial temperature), as long as the move sizes have not been adapted, map the Boltzmann distribution to itself.", "quantifier": "for all measurable objectives, dimensions, temperatures, move sizes, coordinates, measurable sets and numbers of initial moves up to moveCtrlSweep * n", "why_tests_cant": "It is an identity between probability distributions over all starting points and random draws; a test sees finitely many samples and cannot tell a slightly biased proposal or acceptance rule from a correct one.", "anchors": [{"file": "include/ensmallen_bits/sa/sa_impl.hpp", "symbols": ["SA::GenerateMove", "SA::Optimize"]}]}
{"id": "C291", "title": "BigBatchSGD with Armijo search converges when the batch holds all functions", "statement": "BBS_Armijo with batchSize >= NumFunctions on a sum with Lipschitz gradient: every pass moves against the gradient of the sum with a step size that never falls below min(stepSize, (1 - c)/L) and decreases the objective in proportion to the squared gradient; without tolerance some of K passes starts from a gradient of squared length at most N^2 (f(x0) - inf f)/(c min(...) K), under the Polyak-Lojasiewicz inequality the objective converges linearly; with a positive tolerance the run ends by itself after at most (f(x0) - inf f)/tolerance + 2 passes, by a step from a point with small gradient; the value returned is the objective at the coordinates returned.", "quantifier": "for all sums of functions with Lipschitz gradient, starting points, step sizes, search parameters between 0 and 1, batch growth parameters, tolerances and numbers of passes", "why_tests_cant": "Convergence is about runs of any length on all smooth objectives; tests run a few data sets.", "anchors": [{"file": "include/ensmallen_bits/bigbatch_sgd/bigbatch_sgd_impl.hpp", "symbols": ["BigBatchSGD::Optimize"]}, {"file": "include/ensmallen_bits/bigbatch_sgd/backtracking_line_search.hpp", "symbols": ["BacktrackingLineSearch::Policy::Update"]}]}
{"id": "C292", "title": "Katyusha converges to the minimiser of a strongly convex sum", "statement": "With the right convexity and smoothness constants the points of KatyushaType<false> converge to the minimiser of the sum.", "quantifier": "for all sums of smooth functions with strongly convex batches, batch sizes dividing NumFunctions, one pass per epoch, starting points", "why_tests_cant": "A limit is not seen in a finite run, and the published tests check classification accuracy. (False for every problem whose minimiser is not the origin: if the points converge to a stationary point at all, it is the origin; on (x-1)^2/2 the coordinates converge to 5/8.)", "anchors": [{"file": "include/ensmallen_bits/katyusha/katyusha_impl.hpp", "symbols": ["KatyushaType::Optimize"]}]}
{"id": "C293", "title": "Which step sizes work on quadratics for SGD with and without momentum", "statement": "On a convex quadratic, with batches of all functions and no decay, the optimizer drives the gradient to zero from every starting point if and only if, for every eigenvalue l of the Hessian: stepSize l < 2 (StandardSGD), stepSize l < 2 (1 + momentum) (MomentumSGD), stepSize l (1 + 2 momentum) < 2 (1 + momentum) (NesterovMomentumSGD), stepSize l (1 + momentum - 2 v momentum) < 2 (1 + momentum) (QHSGD).", "quantifier": "for all convex quadratics in any dimension, all positive step sizes, momentum in [0, 1), v in [0, 1]", "why_tests_cant": "An exact stability limit over all quadratics and starting points is a statement about infinitely many infinite runs; a run just inside the limit looks like divergence for a long time.", "anchors": [{"file": "include/ensmallen_bits/sgd/sgd_impl.hpp", "symbols": ["SGD::Optimize"]}, {"file": "include/ensmallen_bits/sgd/update_policies/momentum_update.hpp", "symbols": ["MomentumUpdate::Policy::Update"]}, {"file": "include/ensmallen_bits/sgd/update_policies/nesterov_momentum_update.hpp", "symbols": ["NesterovMomentumUpdate::Policy::Update"]}, {"file": "include/ensmallen_bits/sgd/update_policies/quasi_hyperbolic_update.hpp", "symbols": ["QHUpdate::Policy::Update"]}]}
{"id": "C294", "title": "CNE finds reachable levels with probability tending to one when its tolerance is switched off", "statement": "Let CNE run on a deterministic objective with tolerance zero or less, with independent draws of any discrete distribution. If one mutation of a candidate of objective at most u reaches the level v with probability at least eta, then T + 1 generations started from a population whose best candidate has objective at most u return a candidate above v with probability at most (1 - p c^k eta)^T, where p is the probability that a randomly chosen parent is the best candidate, c that of one side of the crossover coin and k the number of elements; hence the probability of missing the minimum tends to zero. With a positive tolerance (the default) this is false: a generation close to the starting value ends the run, so the probability of missing the level stays above a positive bound however many generations are allowed.", "quantifier": "all objectives into a linear order, populations, numbers of generations, discrete distributions of the draws and correct index sorts", "why_tests_cant": "a statement about the probability of an event over all random sequences; a test observes one seed", "anchors": [{"file": "include/ensmallen_bits/cne/cne_impl.hpp", "symbols": ["Optimize", "Reproduce", "Crossover", "Mutate"]}]}
{"id": "C295", "title": "DE explores only what its initial population generates", "statement": "Coordinate by coordinate, every member of every generation of DE and the returned coordinates lie in each set that contains the initial values of this coordinate and is closed under b, l, m -> b + F (l - m). So a coordinate on which the initial members agree never changes; with differential weight zero each returned coordinate is one of the initial values; and DE is not globally convergent in probability: whenever equal draws have positive probability, the probability that a coordinate stays frozen is bounded below uniformly in the number of generations.", "quantifier": "all objectives, draws, weights, crossover rates, tolerances, populations and numbers of generations", "why_tests_cant": "an invariant over runs of any length and all random sequences; a test observes finitely many generations of one seed", "anchors": [{"file": "include/ensmallen_bits/de/de_impl.hpp", "symbols": ["Optimize"]}]}
{"id": "C296", "title": "Random coordinate descent converges linearly on average", "statement": "For Optimize of CD with RandomDescent and K iterations, on a function that is smooth along each column (constant L) and satisfies 2 mu (f - b) <= |grad f|^2, the mean over all n^K equally likely sequences of drawn coordinates of f(returned) - b is at most (1 - 2 mu a (1 - L a / 2) / n)^K (f(start) - b), for step sizes a with a L < 2. So the share of sequences that leave an excess of eps or more shrinks geometrically. Without the second condition the mean squared gradient after some k < K iterations is at most n (f(start) - b) / (a (1 - L a / 2) K).", "quantifier": "all functions smooth along columns, dimensions, starting points, step sizes below 2 / L, numbers of iterations", "why_tests_cant": "a statement about the average over exponentially many sequences of draws, for all functions and run lengths", "anchors": [{"file": "include/ensmallen_bits/cd/descent_policies/random_descent.hpp", "symbols": ["DescentFeature"]}, {"file": "include/ensmallen_bits/cd/cd_impl.hpp", "symbols": ["Optimize"]}]}
{"id": "C297", "title": "SGD on strongly convex sums ends near the minimiser, in any order of visitation", "statement": "On a sum of n functions, each L-smooth and mu-strongly convex, with gradients of length at most G at the minimiser z, a run of StandardSGD with step size a (a * batchSize * L <= 1) that has visited i functions returns coordinates within (1 - a mu / 2)^i |x0 - z| + 2 a L n G / mu of z, plus a G for each function visited in an unfinished epoch - whatever orders Shuffle draws and however the run ends. So for each eps all sufficiently small step sizes lead within eps of z once enough functions have been visited; and the a-dependence is real: there are sums for which every epoch ends at a / (2 - a) |c| from the minimiser.", "quantifier": "all sums of smooth strongly convex functions, orders of visitation, batch sizes, step sizes, starting points, endings of a run", "why_tests_cant": "a bound on the returned coordinates for all orders and all lengths of runs; tests see a few seeds", "anchors": [{"file": "include/ensmallen_bits/sgd/sgd_impl.hpp", "symbols": ["Optimize"]}, {"file": "include/ensmallen_bits/sgd/update_policies/vanilla_update.hpp", "symbols": ["Update"]}]}
{"id": "C298", "title": "Frank-Wolfe with line search: rate, termination and stalling", "statement": "FrankWolfe with UpdateLineSearch on a convex L-smooth quadratic over a convex set of diameter D, with the tolerance of the search positive and not above that of FrankWolfe and at least one search iteration: each step goes to the best point of the segment; after k >= 1 steps f(x) - f(y) <= 2 L D^2 / (k + 2) for every feasible y, independently of the starting point (the classic rule does not have this rate); with maxIterations = 0 and no stop requests the run ends by the gap test, after at most 2 (f(x0) - f(x)) (L D^2 + tol) / tol^2 steps, at a point optimal up to the tolerance. With the default tolerances (1e-5 of the search, 1e-10 of FrankWolfe) this fails: a run can keep its starting point in every step and, without iteration limit, never end.", "quantifier": "all convex quadratics, convex bounded sets, exact linear solvers, starting points, iteration limits", "why_tests_cant": "rates and termination over all functions and sets; stalling is the absence of an event in an unbounded run", "anchors": [{"file": "include/ensmallen_bits/fw/frank_wolfe_impl.hpp", "symbols": ["Optimize"]}, {"file": "include/ensmallen_bits/fw/update_linesearch.hpp", "symbols": ["UpdateLineSearch"]}, {"file": "include/ensmallen_bits/fw/line_search/line_search_impl.hpp", "symbols": ["Optimize"]}]}
{"id": "C299", "title": "BigBatchSGD with AdaptiveStepsize stops moving when the variance term vanishes", "statement": "BigBatchSGD<AdaptiveStepsize> (BBS_BB) blends its step size with a decay that is 0 whenever the variance term is 0, which is the case for functions with equal gradients and for every batch of one or two functions. With batchSize equal to NumFunctions() the step size is then 0 after the first pass: Optimize() makes one step along the gradient at the starting point, of at most the initial step size, and every later StepTaken reports that same point, however many iterations are allowed (two arbitrary smooth functions with batch size 2; ten copies of x^2/2 with the default step size end at least 0.9 |x0| away from the minimum). With batchSize 1 the batch never grows and all iterates stay within 2 N M stepSize of the start if gradients are bounded by M. With batchSize larger than NumFunctions() (the default is 1000) the step size becomes negative and on convex objectives the second search never ends in real arithmetic.", "quantifier": "every smooth objective with vanishing variance term, every start, step size, number of iterations, shrink factor and search parameter", "why_tests_cant": "that no number of iterations ever makes a second move, and that a search never ends, are statements over unbounded runs", "anchors": [{"file": "include/ensmallen_bits/bigbatch_sgd/adaptive_stepsize.hpp", "symbols": ["Update", "Backtracking"]}, {"file": "include/ensmallen_bits/bigbatch_sgd/bigbatch_sgd_impl.hpp", "symbols": ["Optimize"]}]}
{"id": "C300", "title": "IQN on sums of quadratics of one variable", "statement": "With step size 1, on a sum of functions whose batches are quadratics of one variable with positive curvature, IQN is exact: if the batch size divides the number of functions, every run that makes a pass returns a point where the gradient of the whole sum is zero, for every starting point and every random initial point different from it. If the batch size does not divide the number of functions, the run ends for ever at a wrong point: when all functions have the same minimiser, the error is proportional to the distance of the random initial point from it (for (x-1)^2, 2(x-1)^2, 3(x-1)^2 in batches of two the result is 1 + (r-1)/9). If the random point coincides with the starting point, IQN never moves, whatever the objective.", "quantifier": "every number of functions, batch size, curvatures, minimisers, starting point, random point, number of passes", "why_tests_cant": "exactness after one pass for all quadratics, and an error that no number of passes removes, need an argument over all runs", "anchors": [{"file": "include/ensmallen_bits/iqn/iqn_impl.hpp", "symbols": ["IQN::Optimize"]}]}
{"id": "C301", "title": "Minima of the fourth Schaffer function", "statement": "SchafferFunctionN4::Evaluate lies between 0.292578 and 1 everywhere; both documented points have a value within 0.000001 of the documented 0.292579. Global minimisers exist, all lie on a coordinate axis at a distance between 1.25 and 1.2543 from the origin, and with every minimiser its reflections and the points with the coordinates exchanged are minimisers too: besides the two documented points there are two others on the first axis, so an optimiser that returns one of those is right although it fails a comparison with the documentation.", "quantifier": "all points of the plane (real arithmetic)", "why_tests_cant": "a test samples points; that nothing lies below and where the minimisers are is a statement about the whole plane", "anchors": [{"file": "include/ensmallen_bits/problems/schaffer_function_n4_impl.hpp", "symbols": ["SchafferFunctionN4::Evaluate"]}, {"file": "include/ensmallen_bits/problems/schaffer_function_n4.hpp", "symbols": ["SchafferFunctionN4"]}]}
{"id": "C302", "title": "Overloads and members of AugLagrangian", "statement": "Optimize(function, coordinates, initLambda, initSigma) does not depend on Lambda() and Sigma(); it is the same as storing the values in these members and calling Optimize(function, coordinates), provided there is at least one multiplier; without multipliers Sigma() is ignored and the run starts from zeros and 10. The members hold the final multipliers and penalty parameter only when Optimize returned true; otherwise they hold the given values (first overload) or what they held before, and the progress of the run is lost. Calling Optimize again at the point found by a run that returned true makes exactly one inner run, returns true and leaves the members as they are, if the inner solver does not change the objective noticeably.", "quantifier": "all functions, solvers, callbacks, multipliers, parameters and iteration limits", "why_tests_cant": "equality of two overloads and the effect of repeated calls for every function", "anchors": [{"file": "include/ensmallen_bits/aug_lagrangian/aug_lagrangian_impl.hpp", "symbols": ["AugLagrangian::Optimize"]}, {"file": "include/ensmallen_bits/aug_lagrangian/aug_lagrangian.hpp", "symbols": ["Lambda", "Sigma"]}]}
{"id": "C303", "title": "Pareto sets of DTLZ5 and DTLZ6", "statement": "In the unit box the Pareto-optimal points of DTLZ5 are exactly those whose distance variables are one half, as documented, and those of DTLZ6 likewise (by its formula: those whose distance variables are zero); their objectives trace a curve.", "quantifier": "all points of the unit box; the objectives of Evaluate and of GetObjectives", "why_tests_cant": "optimality quantifies over all other points", "anchors": [{"file": "include/ensmallen_bits/problems/dtlz/dtlz5_function.hpp", "symbols": ["DTLZ5::g", "DTLZ5::Evaluate", "DTLZ5::GetObjectives"]}, {"file": "include/ensmallen_bits/problems/dtlz/dtlz6_function.hpp", "symbols": ["DTLZ6::g", "DTLZ6::Evaluate", "DTLZ6::GetObjectives"]}]}
{"id": "C304", "title": "Pareto set of MAF6", "statement": "For every manifold dimension I, the Pareto-optimal points of MAF6 in the unit box are exactly those whose distance variables are one half, and their objective vectors have norm one.", "quantifier": "all I, all points of the unit box; the objectives of Evaluate and of GetObjectives", "why_tests_cant": "optimality quantifies over all other points", "anchors": [{"file": "include/ensmallen_bits/problems/maf/maf6_function.hpp", "symbols": ["MAF6::g", "MAF6::Evaluate", "MAF6::GetObjectives"]}]}
{"id": "C305", "title": "SGDR converges on convex functions when every batch is the whole sum", "statement": "For a convex L-smooth objective and stepSize at most 1/L, SGDR<VanillaUpdate> with a batch size of at least the number of functions never returns a value above the one of the starting point, its excess over any other point is at most the squared distance of the start divided by twice the sum of the step sizes, and that sum exceeds every bound, whatever the restart period and multiplier; so long runs come arbitrarily close to the smallest value. With batchSize equal to the number of functions every step size is the full one or zero.", "quantifier": "every convex L-smooth objective, restart period, multiplier, batch size >= number of functions, starting point", "why_tests_cant": "Limits over unbounded schedules.", "anchors": [{"file": "include/ensmallen_bits/sgdr/cyclical_decay.hpp", "symbols": ["CyclicalDecay::Policy::Update"]}, {"file": "include/ensmallen_bits/sgdr/sgdr_impl.hpp", "symbols": ["SGDR::Optimize"]}, {"file": "include/ensmallen_bits/sgd/sgd_impl.hpp", "symbols": ["SGD::Optimize"]}]}
{"id": "C306", "title": "Gradient clipping bounds the movement of variance-reduced optimizers", "statement": "With a callback that clips gradients (GradClipByNorm, GradClipByValue) to norm c, SVRG with the vanilla update and a constant step size a never ends further from its start than 3 a c times the inner iterations times the epochs; the same holds of SARAH and Katyusha.", "quantifier": "every separable function, batch size, visiting order, epoch and inner iteration count, and every callback that bounds gradients", "why_tests_cant": "The bound holds for all functions, and whether a batch passes through the callback before it is used depends on its position in the full-gradient loop; a test with one batch or one function does not see the difference.", "anchors": [{"file": "include/ensmallen_bits/svrg/svrg_impl.hpp", "symbols": ["SVRGType::Optimize"]}, {"file": "include/ensmallen_bits/sarah/sarah_impl.hpp", "symbols": ["SARAHType::Optimize"]}, {"file": "include/ensmallen_bits/katyusha/katyusha_impl.hpp", "symbols": ["KatyushaType::Optimize"]}, {"file": "include/ensmallen_bits/callbacks/grad_clip_by_norm.hpp", "symbols": ["GradClipByNorm::Gradient"]}]}
{"id": "C307", "title": "Training softmax regression with gradient descent, L-BFGS and coordinate descent", "statement": "On SoftmaxRegressionFunction with labels below the number of classes: the gradient is Lipschitz with constant lambda + sum |x_i|^2 / (2 n) (with intercept 1 + |x_i|^2) and the objective strongly convex with constant lambda, so that for lambda > 0 there is exactly one minimiser and it is the only zero of Gradient; GradientDescent with step size up to the inverse of that constant converges linearly with factor 1 - stepSize lambda, makes at most f(x0)/tolerance + 2 evaluations and, stopped by its tolerance, is within tolerance / (stepSize lambda) of the smallest value; L_BFGS stopped by the gradient norm (for a parameter matrix the largest singular value of the gradient) is within min(K, d) minGradientNorm^2 / (2 lambda) of the smallest value and sqrt(min(K, d)) minGradientNorm / lambda of the minimiser; cyclic coordinate descent without intercept converges linearly in rounds over the features.", "quantifier": "all data, labels, lambda > 0, starting points, step sizes within the bounds, tolerances, iteration counts, callbacks that leave the run alone", "why_tests_cant": "A test trains one model on one data set; the constants and the guarantees are for every data set and every starting point.", "anchors": [{"file": "include/ensmallen_bits/problems/softmax_regression_function_impl.hpp", "symbols": ["Evaluate", "Gradient", "PartialGradient", "GetProbabilitiesMatrix"]}, {"file": "include/ensmallen_bits/gradient_descent/gradient_descent_impl.hpp", "symbols": ["Optimize"]}, {"file": "include/ensmallen_bits/lbfgs/lbfgs_impl.hpp", "symbols": ["Optimize"]}, {"file": "include/ensmallen_bits/cd/cd_impl.hpp", "symbols": ["Optimize"]}]}
{"id": "C308", "title": "Norms of parameters that are a matrix", "statement": "doc/callbacks.md promises that GradClipByNorm leaves a gradient with L2-norm at most maxNorm, and minGradientNorm of L_BFGS is the gradient norm required to go on; the code calls arma::norm(gradient), which for a matrix with several rows and columns is the largest singular value.  So the length of a clipped gradient can exceed maxNorm, by at most the factor sqrt(min(rows, cols)), which is attained; L_BFGS stops with a gradient longer than minGradientNorm and returns a point within min(rows, cols) minGradientNorm^2 / (2 mu) of the smallest value; it never runs longer than on the vectorised parameters; WNGrad moves a matrix differently from the same numbers in one column.  On a row or a column all of this is as documented.", "quantifier": "for all shapes, gradients, norms, strongly convex objectives, settings and callbacks that leave parameters and gradient alone", "why_tests_cant": "The tests use column vectors; all shapes and gradients cannot be tried.", "anchors": [{"file": "include/ensmallen_bits/callbacks/grad_clip_by_norm.hpp", "symbols": ["Gradient"]}, {"file": "include/ensmallen_bits/lbfgs/lbfgs_impl.hpp", "symbols": ["Optimize"]}, {"file": "include/ensmallen_bits/wn_grad/wn_grad_update.hpp", "symbols": ["Update"]}]}
{"id": "C309", "title": "Population-based optimizers with bounds can be reused", "statement": "An NSGA2, AGEMOEA, MOEA/D or PSO object constructed with scalar bounds can be used for several Optimize calls, also with different numbers of variables, and each call uses the bounds a new object would use.", "quantifier": "all bounds, all sequences of calls, all shapes of the coordinates", "why_tests_cant": "The statement is about sequences of calls on one object; the tests construct a new optimizer for every run. (False: the first call replaces the scalar by a vector of its own length, later calls with another number of variables fail.)", "anchors": [{"file": "include/ensmallen_bits/nsga2/nsga2_impl.hpp", "symbols": ["NSGA2::Optimize"]}, {"file": "include/ensmallen_bits/agemoea/agemoea_impl.hpp", "symbols": ["AGEMOEA::Optimize"]}, {"file": "include/ensmallen_bits/moead/moead_impl.hpp", "symbols": ["MOEAD::Optimize"]}, {"file": "include/ensmallen_bits/pso/init_policies/default_init.hpp", "symbols": ["DefaultInit::Initialize"]}]}
{"id": "C310", "title": "Events of a multi-objective run: prompt stop, exact number of objective calls", "statement": "Optimize of NSGA2, AGEMOEA and MOEA/D reports every generation once to the callbacks, makes maxGenerations generations if none of them asks to stop and otherwise ends with the first generation after which one does; the whole sequence of objective calls is determined: per generation objective j is called N^(j+1) times by NSGA2, (2N)^(j+1) times by AGEMOEA and N times by MOEA/D (population size N, objectives numbered from 0).", "quantifier": "all objectives, callbacks, random draws, population sizes, numbers of objectives and generations", "why_tests_cant": "The request may come after any generation and the counts depend on three unbounded numbers; tests look at the final front only.", "anchors": [{"file": "include/ensmallen_bits/nsga2/nsga2_impl.hpp", "symbols": ["NSGA2::Optimize", "NSGA2::EvaluateObjectives"]}, {"file": "include/ensmallen_bits/agemoea/agemoea_impl.hpp", "symbols": ["AGEMOEA::Optimize"]}, {"file": "include/ensmallen_bits/moead/moead_impl.hpp", "symbols": ["MOEAD::Optimize"]}]}
{"id": "C311", "title": "A log kept by the user is the run", "statement": "If the objective and the callbacks note every call and every answer in a log of their own, then after Optimize() of SGD (any update and decay policy, any state of the object), gradient descent, simulated annealing, Frank-Wolfe or OMP the log has grown by exactly the sequence of events the model attributes to the run: no call is made silently, none is lost or reordered. In particular no evaluation of a gradient follows an entry in which a callback asked to stop (SGD, gradient descent).", "quantifier": "all user code that keeps such a log, all policies, all runs that return", "why_tests_cant": "A test logs one run; the correspondence has to hold for every objective, callback and policy", "anchors": [{"file": "include/ensmallen_bits/sgd/sgd_impl.hpp", "symbols": ["SGD::Optimize"]}, {"file": "include/ensmallen_bits/gradient_descent/gradient_descent_impl.hpp", "symbols": ["GradientDescent::Optimize"]}, {"file": "include/ensmallen_bits/sa/sa_impl.hpp", "symbols": ["SA::Optimize"]}, {"file": "include/ensmallen_bits/fw/frank_wolfe_impl.hpp", "symbols": ["FrankWolfe::Optimize"]}]}
{"id": "C312", "title": "Setters of SGDR and SnapshotSGDR act like constructor arguments", "statement": "An SGDR or SnapshotSGDR object on which StepSize(), BatchSize(), MaxIterations(), Shuffle(), ExactObjective() have been assigned, in any order and any number of times, before its first Optimize() behaves in that call exactly like an object whose constructor was given the final values: same returned value, coordinates, calls of user code, and object afterwards.", "quantifier": "all sequences of assignments, constructor arguments, functions, callbacks, update policies, starting points", "why_tests_cant": "a test assigns one or two values and compares results on one function", "anchors": [{"file": "include/ensmallen_bits/sgdr/sgdr.hpp", "symbols": ["BatchSize", "StepSize", "MaxIterations"]}, {"file": "include/ensmallen_bits/sgdr/sgdr_impl.hpp", "symbols": ["Optimize"]}, {"file": "include/ensmallen_bits/sgdr/snapshot_sgdr.hpp", "symbols": ["MaxIterations"]}, {"file": "include/ensmallen_bits/sgdr/snapshot_ensembles.hpp", "symbols": ["SnapshotEnsembles"]}]}
{"id": "C313", "title": "Optimizing in instalments", "statement": "Two calls of SGD (with resetPolicy = false, or with an update policy without state) of a and b whole epochs, the second starting from the coordinates the first left, end like one call of a + b epochs: same coordinates, returned value, policy state, step size, schedule, function and callback state. The same for gradient descent with a and b steps. Conditions: tolerance 0, callbacks that do nothing at the boundaries of calls, and the first call runs to its limit without a stop request.", "quantifier": "all functions, update and decay policies, object histories, batch sizes, numbers of epochs, callbacks after evaluations and steps, with and without shuffling", "why_tests_cant": "tests run one call, or two calls with one configuration", "anchors": [{"file": "include/ensmallen_bits/sgd/sgd_impl.hpp", "symbols": ["Optimize"]}, {"file": "include/ensmallen_bits/gradient_descent/gradient_descent_impl.hpp", "symbols": ["Optimize"]}]}
{"id": "C314", "title": "A good starting point is not lost", "statement": "Optimize() of the population and annealing optimizers (SA, DE, CNE) returns a point whose objective is not larger than that of the coordinates the user passed in. (This is false for all three. Simulated annealing accepts worsening moves; DE and CNE draw the first population around the starting point, and the point itself is not a member. What holds: SA with an acceptance rule that never worsens is safe; with the rule of the code and exponential cooling with rate lambda, the loss is at most T0 (initMoves + 1/lambda) log(1/xi0), xi0 being the smallest acceptance draw, whatever the objective and the number of iterations.)", "quantifier": "all objectives, starting points, draws, temperatures, numbers of initial moves and iterations, callbacks", "why_tests_cant": "A run of a test compares one result with a known optimum; losing a good start depends on the draws, and the bound has to hold for all objectives and run lengths.", "anchors": [{"file": "include/ensmallen_bits/sa/sa_impl.hpp", "symbols": ["Optimize", "GenerateMove"]}, {"file": "include/ensmallen_bits/sa/exponential_schedule.hpp", "symbols": ["NextTemperature"]}, {"file": "include/ensmallen_bits/de/de_impl.hpp", "symbols": ["Optimize"]}, {"file": "include/ensmallen_bits/cne/cne_impl.hpp", "symbols": ["Optimize"]}]}
{"id": "C315", "title": "Lock-free ParallelSGD ends near the minimiser under every schedule", "statement": "ParallelSGD with ConstantStep on a sum of n functions whose gradients are Lipschitz (constant L) and whose sum is smooth and m-strongly convex: for every number of threads whose shares cover the functions, every order of visitation and every interleaving of the threads, with gradients computed at coordinates that other threads are changing at the same time, the coordinates returned after K rounds are within (1 - a m/4)^K times the initial distance plus 8 a n^2 L Gamma / m of the minimiser (a the step size, small against 1/(n L) and m/(n L)^2; Gamma bounds the single gradients at the minimiser). Hence any accuracy is reached with a small enough step size and enough rounds.", "quantifier": "all interleavings of any number of threads, all torn reads, all orders, all sums with these constants, all starting points and numbers of rounds", "why_tests_cant": "A test observes a few schedules of one machine; whether a data race can spoil convergence depends on all interleavings and on mixtures of old and new coordinates that hardly ever occur.", "anchors": [{"file": "include/ensmallen_bits/parallel_sgd/parallel_sgd_impl.hpp", "symbols": ["Optimize", "UpdateLocation"]}, {"file": "include/ensmallen_bits/parallel_sgd/decay_policies/constant_step.hpp", "symbols": ["StepSize"]}]}
{"id": "C316", "title": "ParallelSGD with ExponentialBackoff keeps approaching the minimiser", "statement": "ParallelSGD with ExponentialBackoff gives 1/k convergence (documented in exponential_backoff.hpp): on a strongly convex sum the distance from the minimiser tends to zero as the number of rounds grows. (This is false: the cutoffs are equally far apart, so the step sizes add up to a finite number; when the functions share their minimiser, no run, whatever the schedule of the threads and the number of rounds, comes closer than the fixed fraction exp(-4 n L step (K + gap/(1-beta))) of the initial distance. What holds: the distance is at most the product of the factors 1 - a_k m/4 times the initial distance plus 8 step n^2 L Gamma / m, for every schedule.)", "quantifier": "all numbers of rounds, all interleavings of any number of threads, all torn reads, all beta in (0,1), first cutoffs, step sizes and sums with these constants", "why_tests_cant": "Stalling at a small distance looks like convergence in a finite run with a tolerance; the limit over all numbers of rounds and all schedules cannot be observed.", "anchors": [{"file": "include/ensmallen_bits/parallel_sgd/decay_policies/exponential_backoff.hpp", "symbols": ["ExponentialBackoff", "StepSize"]}, {"file": "include/ensmallen_bits/parallel_sgd/parallel_sgd_impl.hpp", "symbols": ["Optimize"]}]}
{"id": "C317", "title": "Frank-Wolfe and coordinate descent in instalments", "statement": "Two calls of FrankWolfe or CD, of a and b steps, the second starting from the coordinates the first left, end like one call of a + b steps. (This is false for FrankWolfe with UpdateClassic and for CD with CyclicDescent, because iteration numbers start at 1 in every call: calls of one step of FrankWolfe never come closer than 1/3 to the minimiser of x^2/2 on [-1, 1], and calls of CD with maxIterations at most the number of features never change the first feature, however many are made. What holds: the statement is true for FrankWolfe with an update rule that does not use the iteration number, with the events of the two calls one after the other, and for CD with tolerance 0 when a is a multiple of updateInterval and, for CyclicDescent, of the number of features.)", "quantifier": "all functions, solvers, update rules, policies, limits, numbers of calls, callbacks after evaluations and steps", "why_tests_cant": "tests make one call per object, or compare results of two calls with a loose tolerance; the loss appears only for some splits and grows with the number of calls", "anchors": [{"file": "include/ensmallen_bits/fw/frank_wolfe_impl.hpp", "symbols": ["Optimize"]}, {"file": "include/ensmallen_bits/fw/update_classic.hpp", "symbols": ["Update"]}, {"file": "include/ensmallen_bits/cd/cd_impl.hpp", "symbols": ["Optimize"]}, {"file": "include/ensmallen_bits/cd/descent_policies/cyclic_descent.hpp", "symbols": ["DescentFeature"]}]}
{"id": "C318", "title": "AGEMOEA does not depend on the units of the objectives", "statement": "Multiplying the objectives by positive numbers changes neither the survival scores of AGEMOEA nor which of two members of a front is preferred. (This is false: with different factors other members count as extreme, and already a common factor changes the order within the later fronts, because normalised objectives are compared with the ideal point before normalisation. What holds: a common factor changes no score of a first front with at least as many members as there are objectives, and multiplies the normalisation by the factor in every objective in which the front is not constant.)", "quantifier": "all populations, numbers of objectives, factors, powers and logarithms; any solver of linear equations that respects factors", "why_tests_cant": "A test uses one problem in one unit; the fault shows as a different search behaviour, not as a wrong value.", "anchors": [{"file": "include/ensmallen_bits/agemoea/agemoea_impl.hpp", "symbols": ["SurvivalScoreAssignment", "NormalizeFront", "FindExtremePoints", "GetGeometry"]}]}
{"id": "C319", "title": "LBestPSO does not reach the global minimum with growing probability", "statement": "The documentation of LBestUpdate says that its ring topology \"allows PSO to converge at the global minimum, but takes significantly more iterations to do so\". Refuted: where the objective is constant around the starting points, the constriction that keeps the swarm from exploding also keeps it from getting far. With the default factors and uniform random numbers, the probability that a run returns anything but one of its starting points is at most 0.578 n d / R^2 (n particles, d coordinates, objective constant within R of the starting points), whatever the number of iterations; and up to that probability the particles of iteration t are within any given distance of starting points except with a probability that vanishes geometrically in t. For a continuous objective with a single minimum at 200, 64 particles started in [-1, 1] return a point where the objective still has its largest value with probability at least 0.999, for every maxIterations.", "quantifier": "for all distributions of the random vectors with the moments of the uniform distribution (to 1/1000), all starting points, velocities in the unit interval, all horizons, iteration limits and tolerances, all objectives constant near the starting points", "why_tests_cant": "a statement about probabilities that holds uniformly in the number of iterations; no number of runs shows that more iterations would not help", "anchors": [{"file": "include/ensmallen_bits/pso/update_policies/lbest_update.hpp", "symbols": ["LBestUpdate::Policy::Update", "LBestUpdate::Policy::Initialize"]}, {"file": "include/ensmallen_bits/pso/pso_impl.hpp", "symbols": ["PSOType::Optimize"]}, {"file": "include/ensmallen_bits/pso/init_policies/default_init.hpp", "symbols": ["DefaultInit::Initialize"]}]}
{"id": "C320", "title": "With its constant step size AMSGrad settles only where every single gradient vanishes", "statement": "doc/optimizers.md calls AMSGrad \"a variant of Adam with guaranteed convergence\". With the constant step size of the class and one function per batch, the results of runs with a growing number of iterations can tend to a point only if the gradient of every single separable function vanishes there; the same holds for standard SGD, momentum, Nesterov momentum, QHUpdate, RMSProp, AdaDelta, Adam, Padam, AdaMax, AdaBelief, Yogi, AdaBound, AMSBound and OptimisticAdam. Hence on (x-1)^2/2 + (x+1)^2/2 the results of AMSGrad tend to no point, for any parameters and any start.", "quantifier": "for all step sizes, decay rates, starting points, dimensions and numbers of separable functions with continuous gradients; functions visited in order", "why_tests_cant": "a limit over the number of iterations; no finite number of runs shows that the results do not converge", "anchors": [{"file": "include/ensmallen_bits/adam/amsgrad_update.hpp", "symbols": ["AMSGradUpdate::Policy::Update"]}, {"file": "include/ensmallen_bits/adam/adam.hpp", "symbols": ["AMSGrad"]}, {"file": "include/ensmallen_bits/sgd/sgd_impl.hpp", "symbols": ["SGD::Optimize"]}]}
{"id": "C321", "title": "What EndOptimization writes to the coordinates is what the caller gets", "statement": "An EndOptimization callback receives the coordinates by reference. On every path out of Optimize() of FrankWolfe, AugLagrangian, L_BFGS, ParallelSGD, IQN, SVRG, SARAH and Katyusha the coordinates it leaves are those handed to the caller, and it changes nothing else: a run with the callback is the run without it followed by the callback, with the same value returned. PrimalDualSolver, claimed likewise, ignores the callback after a successful run.", "quantifier": "all functions, update rules, other callbacks, limits and starting points; all functions from state and coordinates to state and coordinates as callback", "why_tests_cant": "Needs every exit path and every callback; tests use callbacks that do not write", "anchors": [{"file": "include/ensmallen_bits/fw/frank_wolfe_impl.hpp", "symbols": ["FrankWolfe::Optimize"]}, {"file": "include/ensmallen_bits/aug_lagrangian/aug_lagrangian_impl.hpp", "symbols": ["AugLagrangian::Optimize"]}, {"file": "include/ensmallen_bits/lbfgs/lbfgs_impl.hpp", "symbols": ["L_BFGS::Optimize"]}, {"file": "include/ensmallen_bits/parallel_sgd/parallel_sgd_impl.hpp", "symbols": ["ParallelSGD::Optimize"]}, {"file": "include/ensmallen_bits/iqn/iqn_impl.hpp", "symbols": ["IQN::Optimize"]}, {"file": "include/ensmallen_bits/svrg/svrg_impl.hpp", "symbols": ["SVRGType::Optimize"]}, {"file": "include/ensmallen_bits/sarah/sarah_impl.hpp", "symbols": ["SARAHType::Optimize"]}, {"file": "include/ensmallen_bits/katyusha/katyusha_impl.hpp", "symbols": ["KatyushaType::Optimize"]}, {"file": "include/ensmallen_bits/sdp/primal_dual_impl.hpp", "symbols": ["PrimalDualSolver::Optimize"]}]}
{"id": "C322", "title": "Changing MaxIterations() of SPSA is as good as constructing it with that limit", "statement": "The documentation says that attributes of SPSA may also be changed via the member methods. An SPSA object whose MaxIterations() was changed makes the run that an object constructed with that limit would make.", "quantifier": "every objective, every exponent and step size, every pair of limits, every run", "why_tests_cant": "All objectives, parameters and limits. (False: the constructor derives a stability constant of the step sizes from the limit and the accessor leaves it as it was, so every step of the run is too small or too large. Lowering the limit yields exactly the first moves of the run as constructed; with alpha = 0 the two agree.)", "anchors": [{"file": "include/ensmallen_bits/spsa/spsa.hpp", "symbols": ["SPSA::MaxIterations"]}, {"file": "include/ensmallen_bits/spsa/spsa_impl.hpp", "symbols": ["SPSA::SPSA", "SPSA::Optimize"]}]}
{"id": "C323", "title": "Changing MaxIterations() and BatchSize() of DemonSGD and DemonAdam is as good as constructing it with them", "statement": "The documentation says that attributes of DemonSGD and DemonAdam may also be modified via the member methods. An object whose MaxIterations() or BatchSize() was changed makes the run that an object constructed with these values would make; in particular its momentum stays in [0, initial].", "quantifier": "every separable function of one coordinate with deterministic batches and idle callbacks, every limit and batch size before and after, every initial momentum in (0,1)", "why_tests_cant": "All pairs of settings and whole runs. (False: the constructor derives the length of the momentum schedule from both and the accessors leave it, so runs differ whenever the product changes; if the limit is raised far enough one update forgets the coordinates and later ones use a negative momentum.)", "anchors": [{"file": "include/ensmallen_bits/demon_sgd/demon_sgd.hpp", "symbols": ["DemonSGD::DemonSGD", "DemonSGD::MaxIterations", "DemonSGD::BatchSize"]}, {"file": "include/ensmallen_bits/demon_sgd/demon_sgd_update.hpp", "symbols": ["DemonSGDUpdate::Policy::Update"]}, {"file": "include/ensmallen_bits/demon_adam/demon_adam.hpp", "symbols": ["DemonAdamType::DemonAdamType", "DemonAdamType::MaxIterations", "DemonAdamType::BatchSize"]}]}
{"id": "C324", "title": "Calling SPSA again continues the run", "statement": "Two calls of Optimize() of a and b iterations, the second from where the first ended, end where one call of a + b iterations ends, when nothing stops either run early.", "quantifier": "every objective, every state of the random numbers, every parameter, all a and b", "why_tests_cant": "All objectives, parameters and numbers of iterations. (False: the numbering of the iterations restarts and with it the gain sequences; on f(x) = x two calls end strictly lower for every decaying step size and all a, b >= 1. True with constant gains.)", "anchors": [{"file": "include/ensmallen_bits/spsa/spsa_impl.hpp", "symbols": ["SPSA::Optimize"]}, {"file": "include/ensmallen_bits/spsa/spsa.hpp", "symbols": ["SPSA::MaxIterations"]}]}
{"id": "C325", "title": "Variance-reduced optimizers in instalments", "statement": "Two calls of SVRG (any decay policy), SARAH or Katyusha of a and b epochs, the second starting from where the first ended, end like one call of a + b epochs: same reason of the return, coordinates, returned value, step size, function and callback state, and the same events in the same order. Conditions: tolerance 0, exactObjective = false, callbacks that do nothing at the boundaries of calls, and the first call runs to its limit without a stop request.", "quantifier": "all separable functions, update and decay policies, batch sizes, epoch lengths, numbers of epochs, callbacks on evaluations, gradients and steps", "why_tests_cant": "All functions, histories and numbers of epochs. (True for SVRG and SARAH; false for Katyusha, whose coupled sequences are local to a call.)", "anchors": [{"file": "include/ensmallen_bits/svrg/svrg_impl.hpp", "symbols": ["SVRGType::Optimize"]}, {"file": "include/ensmallen_bits/sarah/sarah_impl.hpp", "symbols": ["SARAHType::Optimize"]}, {"file": "include/ensmallen_bits/katyusha/katyusha_impl.hpp", "symbols": ["KatyushaType::Optimize"]}]}
{"id": "C326", "title": "AugLagrangian in instalments", "statement": "If AugLagrangian::Optimize was stopped by maxIterations, calling it again at the coordinates reached continues the run: a number of calls with a small maxIterations gets where one call with a large one gets.", "quantifier": "all constrained functions, inner solvers, callbacks, arithmetic, initial multipliers and penalty parameters, limits and numbers of calls", "why_tests_cant": "The penalty parameter and the multipliers are stored only when a call converges, and the threshold of the multiplier update is local to a call; a test makes one call with a generous limit, so it does not see that a limit of a few passes makes convergence impossible for any number of calls.", "anchors": [{"file": "include/ensmallen_bits/aug_lagrangian/aug_lagrangian_impl.hpp", "symbols": ["AugLagrangian::Optimize"]}]}
{"id": "C327", "title": "L-BFGS in instalments", "statement": "If L_BFGS::Optimize was stopped by maxIterations, calling it again at the coordinates reached continues the run: two calls of a and b iterations end where one call of a + b iterations ends.", "quantifier": "all functions, callbacks, arithmetic, memories, numbers of calls", "why_tests_cant": "The curvature pairs are local to a call, so the second call begins with a normalised gradient step again; a test that runs one call to convergence does not see it, and a second call also decreases the objective, so nothing looks wrong.", "anchors": [{"file": "include/ensmallen_bits/lbfgs/lbfgs_impl.hpp", "symbols": ["L_BFGS::Optimize", "L_BFGS::SearchDirection", "L_BFGS::ChooseScalingFactor"]}]}
{"id": "C328", "title": "ParallelSGD in instalments", "statement": "Calling ParallelSGD::Optimize again on the same object at the coordinates reached continues the run: two calls of a and b rounds end where one call of a + b rounds ends, with the same value returned and the same state of the decay policy.", "quantifier": "all sparse functions, schedules of the threads, callbacks, decay policies, arithmetic, limits and numbers of calls", "why_tests_cant": "The decay policy is a member but the epoch number it is given restarts with every call; a test makes one call. That the step size is never reduced in any number of short calls is a statement about all numbers of calls.", "anchors": [{"file": "include/ensmallen_bits/parallel_sgd/parallel_sgd_impl.hpp", "symbols": ["ParallelSGD::Optimize"]}, {"file": "include/ensmallen_bits/parallel_sgd/decay_policies/exponential_backoff.hpp", "symbols": ["ExponentialBackoff::StepSize"]}, {"file": "include/ensmallen_bits/parallel_sgd/decay_policies/constant_step.hpp", "symbols": ["ConstantStep::StepSize"]}]}
{"id": "C329", "title": "IQN started at a minimiser", "statement": "IQN::Optimize started at a point where the gradient of every separable function is zero returns that point.", "quantifier": "all separable functions, random initial points, step sizes, batch sizes, numbers of iterations, dimensions and callbacks that change nothing", "why_tests_cant": "The tables of iterates start at a random point, not at the coordinates given, so what happens depends on that point and on the Hessian approximation; a test starts away from the minimum and checks a tolerance.", "anchors": [{"file": "include/ensmallen_bits/iqn/iqn_impl.hpp", "symbols": ["IQN::Optimize"]}]}
