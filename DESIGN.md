# Formal model of abcpy — design

Source modelled: `/repo` (eth-cscs/abcpy, pinned commit). The code is read as text, never run.
The model is written in Lean 4.33 with Mathlib, under `lean/Verif/`.

## Method

* One Lean directory per area. `Model` files transcribe the Python function by function (every
  definition cites file and lines). Specifications are small and written without the model's
  helpers. `Props` files contain the property theorems, each with an `example` (or a `_violated`
  theorem on a concrete run) showing that a concrete non-trivial case meets the hypotheses.
* Python objects become numbered nodes, mutable attributes become a state record that is passed
  along, exceptions become values, loops become structural recursion or recursion on fuel (with a
  theorem that enough fuel exists, or a statement about the runs that end), random generators
  become an arbitrary state of the worker or an arbitrary stream of outcomes.
* Numbers: floating point is modelled by the reals or rationals (stated per module). Rounding,
  overflow and NaN are outside the model unless a module says otherwise.
* Where the code violates the property, the negation is proved on a concrete reachable witness
  (`..._violated`) and the strongest true part is proved as `..._partial`. The section
  "Disagreements" lists all of them.
* The theorems are tested against wrong programs: `seeded/LOG.jsonl` records every edit of a model
  definition, the theorems that failed, and what was tightened.

## Plan per property

| id | property | model | proof | status |
|---|---|---|---|---|
| C01 | Setting then reading parameters gives back what was set | Graph: numbered DAG, `visited`/`calculated_pdf` flags and stored values per node, the traversals of graphtools 1:1 by recursion on the node number | flagged depth-first traversal = keep-first removal of duplicates of the tree unfolding; set and get walk the same list | proved |
| C02 | All views of the parameter vector use the same order and list each free parameter once | Graph: numbered DAG, `visited`/`calculated_pdf` flags and stored values per node, the traversals of graphtools 1:1 by recursion on the node number | both orders, the parameter mapping and the view of the kernels are shown equal to the same flag-free list | proved |
| C03 | Graph operations leave no residue for the next operation | Graph: numbered DAG, `visited`/`calculated_pdf` flags and stored values per node, the traversals of graphtools 1:1 by recursion on the node number | induction over histories of operations: every operation that returns clears the flags it set | proved |
| C04 | One successful prior draw samples every random variable exactly once, inputs first | Graph: `_sample_from_prior` with an oracle for every draw and a log of draws | invariant on the log over recursion and retry loop | proved |
| C05 | A rejected parameter vector leaves the stored parameters untouched | Graph: `set_parameters` with arbitrary input checks | negation on a two-node graph; partial: exactly the prefix before the refused entry is written | partial |
| C06 | Whether a parameter vector is accepted depends only on that vector | Graph: `set_parameters` | negation by two histories; partial by independence of the checks | partial |
| C07 | Prior density is the product of the conditional densities, each free parameter counted once | Graph: `_recursion_pdf_of_prior` with per-node memo | product over distinct nodes by induction; negation for discrete nodes reached twice | partial |
| C08 | Evaluating the prior density does not change the model or its argument | Graph: `pdf_of_prior` (calls `set_parameters`) | negation by witness; partial: what is stored | partial |
| C09 | Re-ordering kernel output does not depend on the order of the kernels | Graph: `get_correct_ordering` | equality with the order of C02; permutation of the kernels | proved |
| C10 | Perturbed values reach the parameter they were drawn for | Kernel: `JointPerturbationKernel.update` and the re-ordering | composition with C02 and C09 | proved |
| C100 | APMCABC runs follow the algorithm | Apmc/Spec: relational tasks and History; Apmc: state machine | refinement: invariant Follows over the loop; model run implies History | proved |
| C101 | APMCABC weights of old and new particles are on one scale | Apmc/Spec: weights of kept and new particles | induction over History; negation for a kernel equal to the prior and for a concrete run | partial |
| C102 | SABC runs follow the simulated annealing algorithm | Sabc/Spec: relational specification of runs | refinement, invariant Follows over steps | proved |
| C103 | SABC moves satisfy detailed balance for every kernel | Sabc: acceptance of a move; moves as programs with random draws | flows balanced exactly if the kernel is symmetric; negation; invariant measure of the moves with refused proposals | partial |
| C104 | ABCsubsim runs are the runs of its chain algorithm | Subsim/Spec: relational specification of runs | refinement, invariant Follows over steps | proved |
| C105 | ABCsubsim chains are in detailed balance | Subsim: chains; chains as programs with random draws | flows of moves; negation; base of all proposals; invariant measure of chains of any length | partial |
| C106 | ABCsubsim journals one covariance matrix per kernel | Subsim: covariance matrices of all steps | induction over History: list repeated 2^k times; negation | partial |
| C107 | ABCsubsim adopts covariance scales with acceptable rates | Subsim/Spec.Tuned | case analysis; negation by a concrete sampler | partial |
| C108 | ABCsubsim particles respect the annealing parameter | Subsim: states of chains | induction over chains; negation by a concrete run | partial |
| C109 | The ABCsubsim annealing parameter separates the particles that go on | Subsim: sorted distances | counting in sorted lists; negation for all runs with distinct distances | partial |
| C11 | Selecting the accepted values of some models picks the right columns | Graph: column selection of the accepted-parameters manager | composition with C02 | proved |
| C110 | A run of PMCABC follows the algorithm | PMCABC runs of Pmc/Model.lean; specification Pmc/Spec.lean (attempts, importance weights, thresholds, histories) | refinement by an invariant over steps (Follows) | proved |
| C111 | Restarting PMCABC from a journal continues the run | calls with journals in Pmc/Session.lean: what is stored, restart from a journal | histories compose; the restart starts from the last population and the larger of percentile and given threshold | proved |
| C112 | number_of_simulations counts all simulations behind the journal | simulation counter kept by the sampler, appended to the journal (Pmc/Session.lean) | invariant of the journal; counterexample for all restarts by a new sampler | partial |
| C113 | The journal lists the thresholds that were used | configuration epsilon_arr (Pmc/Session.lean) | invariant of the journal; length m + k k after a restart with k steps | partial |
| C114 | A process that dies loses at most the step in progress | contents of the file over time, crash points are elements of that list (Pmc/Session.lean) | every readable element belongs to a history; torn and empty files shown for all runs | partial |
| C115 | A run of PMC follows the algorithm | `PmcLik/Model.lean`: `PMC.sample` as a state machine over the master state; `PmcLik/Spec.lean`: relations for the draws, the proposals and a chain of iterations with a weight rule | Refinement: every iteration of the model is a `Stage` of the specification; induction over the iterations. With the weight rule of the code (`C115_partial`); for a flat prior normalisation removes the second factor (`C115_flat`) | partial |
| C116 | Restarting PMC continues the run | Journals of PMC: what `Journal.fromFile` gives back and what each iteration adds | The chain of the second call starts at the last population of the first; journals by induction | proved |
| C117 | PMC starts from given initial points | Truth value of `array == None` in numpy | Negation for two or more points; the case of one point follows C115 | partial |
| C118 | Restarting SMCABC continues the run | `Smc/Restart.lean`: `SMCABC.sample` with a journal file | The loop splits at any step (`loop_split`); the state restored from the journal differs from the one in memory only in the counters, which no step reads (`step_same`) | proved |
| C119 | Every sampler can be restarted from a journal that it wrote | `Rsmc/Restart.lean`, `Apmc/Restart.lean`, `Sabc/Restart.lean`, `Subsim/Restart.lean`: the first step of each sampler with a journal file, with the broadcasts that a new sampler lacks | Negations: case analysis of the first step of a restart, for every journal; the positive cases are C54, C111, C116, C118 | partial |
| C12 | Nested constructor arguments are flattened left to right | Models: `InputConnector.from_list` | structural (mutual) induction on nested lists | proved |
| C120 | The journal on disk is the journal returned | `Apmc/Restart.lean`: the loop of `APMCABC` together with the file; PMCABC in `Pmc/Session.lean` | Invariant of the loop relating file and journal | partial |
| C121 | Covariance matrices describe the weighted particles | `Cov/Model.lean`: `np.cov` with `aweights`, `calculate_cov`, the stabilised matrices of the samplers, `posterior_cov` | Quadratic form of the matrix is the weighted sum of squares of the centred combination; positive definite iff some direction has positive variance for all directions, by the kernel of the form | partial |
| C122 | The network kernel walks along edges | `Network/Model.lean`: `update` and `pmf` of the network kernel as finite laws (lists of results with probabilities) | Induction on the parameters; the law of the joint move is the product of the moves. Negations by case analysis and a concrete network | partial |
| C123 | Results with a seed do not depend on backend and schedule | `Schedule/Model.lean`: tasks that change their object, processes with own copies, schedules; the task of RejectionABC on the graph model; `Graph/Fresh.lean`: two runs of prior sampling from different left values; `Schedule/Runs.lean`: the run models of the other samplers | Bisimulation: two objects with equal constants and no marks give equal results and stay alike; induction on the traversal of the graph, on the loop of the task, on the schedule and on the steps of a run. Negations: a run with two tasks of SlicedWasserstein; PMCABC with a first threshold at the maximum of the distance | partial |
| C124 | The particles of a run are separate draws | `Schedule/Seeds.lean`: arrays of seeds drawn with replacement, the map of the tasks of RejectionABC | Counting: arrays without repetition are a falling factorial, bounded on both sides by induction; equal seeds give equal results by C123 | partial |
| C125 | Accepted particles follow the prior conditioned on acceptance | `Rejection/Law.lean`: the task of `Rejection/Model.lean` on sequences of independent outcomes | Induction on the number of trials gives a geometric sum; limit of the geometric series | proved |
| C126 | Forward derivatives are the derivatives | `Deriv/Model.lean`: layers, the loops of `forward_and_derivatives` and `forward_and_full_derivatives` on tensors as functions of indices | Induction on the layers with curves of inputs: chain and product rule for `HasDerivAt` | proved |
| C127 | The Fisher loss is the score-matching objective | `Deriv/Model.lean`: `Fisher_divergence_loss`, with the added column of ones | The log-density is linear in the outputs; C126 | proved |
| C128 | The sliced loss is unbiased | `Deriv/Train.lean`: the sliced loss with exact `autograd` | Rows do not influence each other; gradient and Hessian of the sums; orthogonality of random signs by an involution; for drawn noise (`Deriv/Noise.lean`) the law of normal numbers is invariant under changes of sign and permutations | proved |
| C129 | An epoch uses every sample once and records the mean loss | `Deriv/Train.lean`: the loop over batches | Induction on the loop | partial |
| C13 | Indexing a model outside its output is refused | Models: `__getitem__` with Python integer indexing | case analysis; negation for negative indices | partial |
| C130 | Continuous distributions: the density function is the density of the sampler | Densities/Model.lean: checks, one draw as a function of standard random numbers, laws as pushforward measures, density formulas of scipy and of line 310 | change of variables in one dimension (LogNormal, Exponential); Tonelli and the gamma integral (StudentT) | partial |
| C131 | Poisson: sampler and mass function have the given rate | Densities/Model.lean: poissonPmf, poissonDrawMass with the truncated rate | sum of the Poisson series and its mean; value at zero determines the rate | partial |
| C132 | Multivariate distributions accept exactly symmetric positive definite matrices | Densities/Multi.lean: reshape of the input list, allclose, symmetric matrix read from the lower triangle, positive definiteness for Cholesky | direct; a matrix with a large entry above the diagonal relative to it | partial |
| C133 | Multivariate distributions: the density function is the density of the sampler | Densities/Multi.lean: draws as affine image of independent normal numbers through a singular value decomposition, gamma mixing, density formulas | density of product measures, change of variables in several dimensions, uniqueness of positive square roots, equality almost everywhere of continuous densities, Tonelli | partial |
| C134 | The nearest-neighbour divergence estimates are plug-in estimates | Distance/Neighbours (klEst, gammaEst, hellinger); separate definition of the k-nearest-neighbour density estimate | algebra over lists of positive distances; uniqueness of the k-th smallest distance (C82) | partial |
| C135 | The proposal covariance of MCMC changes only in burn-in, on schedule | Mcmc (step, adaptCov, fresh, restart) | invariant of the loop pairing the moves of the chain with the list of covariances | partial |
| C136 | The kernel density is the density of the kernel's draws | Kernel.Density: draws as push-forwards of standard normal (and chi-square) variables by the factor of the covariance, densities as computed by scipy including the eigenvalue cut-off. | Change of variables for linear maps, reusing C133; Fubini for the joint kernel; a diagonal matrix with one small entry for the violation. | partial |
| C137 | Weighted particles of PMCABC estimate averages under the ABC posterior | Pmc.Target: the resampling loop as a program in the measure monad over arbitrary measurable spaces, with fuel for both loops. | A loop that redraws has, for each amount of fuel, a law proportional to the restriction, by induction; then an exact computation of the weighted integral; a random walk on three points for the violation. | partial |
| C138 | The data behind an accepted particle were simulated with its parameters | The tasks of the samplers on the graph of models: nodes with values and marks, perturbation with its 100 attempts, pdf_of_prior and set_parameters storing values, simulators reading stored values (Site.Model, Site.Samplers) | Invariant: no marks left, constants in place, and the nodes hold the vector that the last accepted proposal returned; loops by induction on fuel; violations by computing a concrete run | partial |
| C139 | On the graph of models, the tasks of the samplers do what the samplers do over parameter vectors | Graph-level tasks (Site.Model, Site.Samplers) and the environments of the abstract samplers in which the operations are functions of vectors (Site.Refine, Site.Same) | Refinement: a simulation relation (same seed and position, nodes in order) kept by every operation and loop; then the schedule theorem of C123 | proved |
| C14 | Arithmetic on models computes the arithmetic of their values | Models: operator nodes with the layout of their inputs | computation for all inputs; negations in dimension two, for stored values and for number ** model | partial |
| C140 | A team of processes works in step and returns the leader's result | Nested.Model: programs of leader and workers over collective operations; Run: a team runs if all processes are in the same operation | composition of runs, induction over the function, the items and the commands; for exceptions, inversion of the run up to the mismatch | partial |
| C141 | Random numbers of a simulation are not used again | Nested.Stream: simulate on a copy of the generator; parts of the stream that are used | induction over the uses; explicit law of RejectionABC on fair bits | partial |
| C142 | Saved statistics are read back | Network classes as names, shapes and a forward function; state dictionaries; files over time | A dictionary saved from a class is loaded unchanged; that of the wrapped network is refused by the bare class (a longest name would have a longer one), so the second attempt is taken; parameters of the default networks have distinct names | partial |
| C143 | Learned statistics are a function of the data | Modes of networks through training | The last epoch decides the mode; in evaluation mode the number of the call is not used | partial |
| C144 | The losses of distance learning vanish exactly at separated embeddings | Losses on lists of pairs and triplets | A mean of nonnegative terms is zero iff all are; square roots and margins | proved |
| C145 | The validation loss does not depend on the batch size | The loop over batches with its index | Induction over batches; slices of a list add up | partial |
| C146 | A whole run of a sampler does not depend on the backend, the schedule, or what the models held before | Site/RunModel.lean: the loops of the six sample methods with the state of the main object and of the objects of the processes, and maps by the sequential backend (one object carried along) or the MPI backend with any schedule. | Site/Run.lean, RunOthers.lean, RunChains.lean: induction over steps; each map equals the list of results of the tasks over vectors because every task agrees with its version over vectors (C139) and leaves a graph in order. The populations stay accepted by set_parameters, which is an invariant of each loop. | proved |
| C147 | What a run reports about a particle is true of the models | Site/RunModel.lean as for C146; Site/EndToEnd.lean: Backed, the relation between a particle and the models. | Site/EndToEnd.lean: C146 carries each run over to the algorithm on vectors; the specifications C100, C102, C104, C110 and C45 of the runs say which attempts the particles come from, and every attempt simulates from accepted values. EndExamples.lean computes runs that end. | partial |
| C148 | Dropped data sets are released by all processes | Mpi/Program.lean as for C20: counters, stores of scheduler, leaders and teams, destructors. | Mpi/Release.lean: invariant over programs that the stores have entries for exactly the living objects; a stored source list is kept by every later call. | partial |
| C149 | Kernels can propose with the covariance matrices of the samplers | Cov/Shape.lean: covariance matrices with the shape of the numpy array, `_compute_accepted_cov_mats`, the matrices of ABCsubsim over all steps, `update` of the kernels. | Case distinction on the number of components; invariant over the steps of ABCsubsim. | partial |
| C15 | A stored sample always lies in the declared support | Models: `_forward_simulate_and_store_output` and the samplers of the priors | case analysis; negation when the output check fails | partial |
| C150 | Synthetic likelihoods do not depend on whether statistics are stored as integers | Likelihood/Integers.lean: the semiparametric likelihood with arrays of integers, into which only integer parts can be written. | The definitions agree when nothing is cut; ranks without ties are integers; negations. | partial |
| C151 | MCMC can propose with its default covariance matrices | Mcmc/Default.lean: the tables of kernel parameters on the graph, line 4340, first proposal. | Case distinction; the tables are computed with the graph lemmas of C10. | partial |
| C152 | The adapted proposal of MCMC lets the chain move | Mcmc/Stuck.lean: the chain of Mcmc/Model.lean with one normal kernel and the covariance matrices of Cov/Shape.lean. | From C121 (positive definite if and only if two states differ) and, for the violation, induction over the steps with the schedule of C135. | partial |
| C153 | The statistics of a default network | Embedding/Forward.lean: specification of the network on one row; the model of Embedding/Model.lean. | Induction over the hidden layers and C62 for the expansion. | proved |
| C154 | Data behind approximate likelihoods in MCMC | Site/Likelihood.lean: simulation of all observed models one after the other, the task of one sample, the map over the seeds on the sequential and MPI backends, and the reordering of the results. | store_same and runMap_spec for the tasks; induction over the observed models. | partial |
| C155 | MCMC on every backend | Mcmc/Follow.lean: the chain on an object with a state, operation by operation; Site/RunMcmc.lean: that object is the process with its graph, the specification is the environment of Mcmc/Model.lean without stored values. | Simulation relation between the object and the generator, step by step; C154 for the likelihoods. | partial |
| C156 | PMC on every backend | Site/RunPmc.lean: the iterations of PMC on the process with its graph, with the two maps of every iteration; the specification is the environment of PmcLik/Model.lean without stored values. | propose_fits, store_same, density_same and runMap_spec for the tasks; induction over indices and iterations. | proved |
| C157 | Maps with the Spark backend | Schedule/Spark.lean: data sets as functions computed at collect, attempts at slices on copies of the sampler, histories with lost attempts. | A job equals a map with the MPI backend in which process j runs slice j (execute_slices), so runMap_spec and the theorems on samplers apply. | proved |
| C158 | Draws come from the generator that is passed | Network/Draw.lean: update with the generator passed and the shared one as two states. | Induction over the values for the moves; two states of the shared generator that choose two neighbours for the negation. | partial |
| C159 | Score matching trains with every number of samples | Deriv/Score.lean: epochs over batches with a step that raises for a batch of one sample if the network normalises. | The batches are the consecutive pieces of the permutation (C129); arithmetic of the last piece. | partial |
| C16 | Discrete priors: the mass function sums to one and matches the sampler's range | Models: mass functions over the reals | finite sums, binomial theorem | partial |
| C160 | The embedding of the parameters is normalised | Deriv/Score.lean: BatchNorm1d in training and evaluation mode (as documented by PyTorch), the place of the layer in the default network. | Algebra of sums; induction over the batches from the end for the moving averages. | partial |
| C161 | Early stopping of score matching | Deriv/Score.lean: the epochs of _train with saved dictionaries as addresses and losses indexed from the end. | Invariant over the epochs; checks are multiples of the interval apart, so the index is inside the list. | partial |
| C162 | The posterior histogram distributes exactly the weights of the particles | Journal/Histogram.lean: `posterior_histogram` with numpy's `histogramdd` (edges, search, raveled index, bincount, cutting off the outer bins). | The search in equally spaced edges is a floor; raveling is injective below the shape; sums over cells and particles are exchanged. | proved |
| C163 | Learned statistics give the network what it was trained on | Learning/Trained.lean: validation set, scalers fitted on the training set (MinMaxScaler, BoundedVarScaler) and applied to both sets, the returned NeuralEmbedding with the same scaler and previous statistics. The training routine is any function of its data. | Scalers and statistics work row by row (C84), the rows are those of the draws (C65). | partial |
| C164 | Automatic derivatives are those of each data set's own statistics | Deriv/Autograd.lean: gradients of the sum of one output column over the batch, second gradients of single columns of the Jacobian, transpositions. torch.autograd.grad is taken to give exact partial derivatives. | For functions of single rows the other rows contribute constants; then C126/C127. | partial |
| C165 | Derivatives refuse entries that are not finite | Deriv/Autograd.lean: extended numbers with the addition of floating-point arithmetic, comparison of Python (NaN differs from everything), membership in [nan, inf]. | Kinds of entries determine the kind of the sum, by induction. | partial |
| C166 | MCMC leaves the posterior invariant whichever kernel of the library it is given | Laws of what update of each kernel draws (randint as uniform measure, product measures, outcome lists of C122), one step of the sampler as a transition probability built from moveProb of C53. | A kernel with a symmetric density gives the transition of C53_invariant; symmetry and density of each kernel; products. Counterexample by computing one step on a path. | partial |
| C167 | Tasks read the population that was handed over last, and no other is kept | Manager as five slots with numbers of broadcast objects; a session compiles to a program of backend calls (broadcast, destruction, parallelize, map, collect) of the MPI model of C20. | Simulation between the MPI state and the ideal state, invariant: the slots point to different living objects with the latest values and every living object is in a slot; induction over the session. | proved |
| C168 | The next threshold of SMCABC leaves some weight | Smc/Model (bisection, newEps, newWeights, smcRun) with the specification Spec.Kept of what is left of a population | the bracket of the bisection (C96), monotonicity of the weights in the threshold, and the exact course of the bisection for the counterexample | partial |
| C169 | The search for the next threshold of SMCABC ends in floating-point arithmetic | Floats/Basic (rounding to 53 binary digits, nearest, ties to even), Floats/Bisection (every operation rounded) | induction on the number of halvings with an error term for the midpoint; the counterexample is computed with the rounding itself | partial |
| C17 | Parallel map returns the sequential result under every schedule | Mpi: small-step transition system of scheduler and leaders (requests, messages, results, sentinels) | invariants over all reachable states, termination measure | proved |
| C170 | Normalised weights are probabilities for the random choice in floating-point arithmetic | Floats/Choice (sums in any order as trees, normalisation, the check of numpy's choice) | induction on the tree of additions, Bernoulli's inequality | proved |
| C171 | PMC makes weights out of log-likelihoods of every size | Floats/LogWeights (centring on the log scale, rounded) with an exponential function of which only the value at zero and the range are assumed | the largest weight is exactly one; then the bounds of C170 with an absolute error for underflow | partial |
| C172 | The chain of MCMCMetropoliHastings forgets its first state | Mcmc/Ergodic (laws of the states of the chain) on top of the step of Mcmc/Kernels | the law of a step is at least a fixed fraction of the posterior (lower bound of the kernel density on a compact set, bound of the acceptance probability); contraction on sets by the layer-cake formula; induction over steps | proved |
| C173 | Weighted particles of PMC estimate averages under the posterior | Pmc/LikTarget: the law of a new particle with its data, and its weight, as measures | reduction to the change of measure of C137 with the likelihood as part of the averaged function; two-point prior for the violation | partial |
| C174 | Averages over the samples of MCMCMetropoliHastings converge to posterior averages | Mcmc/Averages: joint law of the state and of the running sum over the samples | the covariance of the sum with functions of the state is bounded by a geometric series (C172); second moment by induction; Chebyshev | proved |
| C175 | The classifier distance scores every row with a classifier that has not seen it | LogReg/Model: folds, labels, rows held out and kept | the filtered lists of labelled rows are those at the positions of the specification; sum over folds | proved |
| C176 | The classifier likelihood is the log ratio of the densities | LogReg/Model linearLoglik; logistic function in LogReg/Scores | induction over the rows, logarithm of the odds | proved |
| C177 | Averages over the samples of RejectionABC converge to ABC posterior averages | Rejection/Averages: the loop of Rejection/Model fed with an infinite sequence of outcomes | geometric series for the law of the first accepted outcome; strong law of large numbers and variance of sums of independent variables (Mathlib) | proved |
| C178 | The ABC posterior tends to the posterior as the threshold tends to zero | Rejection/Limit: joint law of prior and simulator | Fubini; means over small balls; dominated convergence | proved |
| C179 | Weighted particles of SMCABC estimate averages under the ABC posterior | Smc: a particle of a run as a program with random draws, with and without proposals that are drawn again | detailed balance gives invariance of each move, reweighting changes the threshold; induction over the steps; with refusals the invariant measure of C95 gives bounds | partial |
| C18 | Work distribution neither loses, repeats nor deadlocks | Mpi: small-step transition system of scheduler and leaders (requests, messages, results, sentinels) | invariants over all reachable states, termination measure | proved |
| C180 | Plots of the posterior show the parameters in their labels | Journal.Plot: the figure as a list of panels with labels, samples, limits, means and true values along their axes | induction over the names for the ranges, indices of the panels for the layout | partial |
| C181 | Ranges given for plots are used and left as they are | Journal.Plot: the dictionary of ranges before and after the call | the ranges that are added are those of the samples of the call; a shape is never equal to a number | partial |
| C182 | Posterior means of PMCABC and PMC converge | Independent particles with the laws of C137 and C173 for tasks that end, weights before normalisation, np.average of the journal. | Strong law of large numbers for sums of weights and of weighted values; Chebyshev's inequality for both; if weighted draws do not estimate averages under the target then some set has a wrong limit. | partial |
| C183 | Every kernel of a joint kernel proposes with its own matrix | Lists of kernels with their values for all particles; matrices as arrays with shapes; factors zipped with matrices for PMC. | Position by position from the loop lemmas of collect, with C121 and C149 for one kernel. | partial |
| C184 | Averages over the journalled particles of APMCABC are ABC posterior averages | One simulated particle of the first step and of later steps as programs with random draws; np.average over all particles (journal) and over those below the threshold (kept). The threshold is a fixed number. | Instances of the general law of large numbers of C182 for the joint law of prior and model, restricted to accepted data or not. | partial |
| C185 | The trace plot follows each parameter through the chain | traceplot as a function of the named samples; ax.plot draws numbers, vectors and matrices by columns. | Cases of squeeze by the number of samples and components. | partial |
| C186 | The plot of effective sample sizes keeps below its line | plot_ESS of a journal to which samplers have added weights and effective sample sizes. | Induction on the steps; Cauchy-Schwarz with its case of equality. | partial |
| C187 | With bounds the Metropolis-Hastings sampler samples the posterior of the parameters themselves | A step as a law on the parameters: proposal around the transformed parameters, acceptance from prior, likelihood and Jacobian of the parameters transformed back. | Change of variables with the determinant of C56; invariance in the transformed space from C166. | partial |
| C188 | The adapted proposal matrix is the covariance of the chain where proposals are made | The adaptation for one continuous kernel, with numpy's treatment of a single row; the runs of C135. | Weighted covariance of C121 with equal weights; growth of the exponential for the counterexample with bounds; two steps of the loop for the interval one. | partial |
| C189 | A process that dies leaves the journal of a shorter run | The loop of each sampler as a machine with stops, breaks and saves; a save empties the file and then writes it. Each loop is shown to be the loop of the model of its sampler. | Induction over the iterations of a general loop; the steps with full output do not depend on the number of steps. | partial |
| C19 | A failing task makes the collect fail, whichever worker ran it | Mpi: small-step transition system of scheduler and leaders (requests, messages, results, sentinels) | invariants over all reachable states, termination measure | partial |
| C190 | Parameters that reach the simulator through arithmetic are informed by the data | Expr: a trial of RejectionABC on a graph with expressions, whose calls use independent random numbers; the values that the nodes should have | the values after sample_from_prior satisfy equations with one solution; the data do not use the random numbers of hidden parameters, so they are independent; C177 gives the law of what is accepted | partial |
| C191 | A proposal with positive prior density is not refused because of the number of parameters | pdf_of_prior (the traversal of Graph, which is generic in the kind of numbers) with the rounded product of binary64 with gradual underflow (Floats/Underflow), and the loop of proposals on the graph (Floats/Prior) | a relation between the traversal with floats and the traversal with exponents, kept by products; bounds for rounding at powers of two; induction on the fuel of the loop | partial |
| C192 | A simulation whose distance is not a number is not accepted | the loops of RejectionABC and PMCABC, np.percentile and np.max with distances that are real, infinite or NaN (Nan/Num, Nan/Percentile, Nan/Rejection, Nan/Pmc) | induction on the fuel of the loops and on the steps; a loop is split at the step with the NaN; the law with the finite sequences of outcomes of Chance | partial |
| C193 | With a fixed budget, simulations whose distance is not a number are dropped | the cutoff and the selection of RejectionABC in budget mode with distances that may be NaN (Nan/Rejection) | induction on the list of simulations | partial |
| C194 | A proposal whose likelihood is not a number is refused, and nothing else changes | the loop of MCMCMetropoliHastings with log-likelihoods that are real, infinite or NaN, and the arithmetic of the acceptance probability with them (Nan/Mcmc) | case analysis on the kinds of numbers for the decision; induction on the rounds | partial |
| C195 | In SMCABC a simulation whose distance is NaN counts as one that is too far | SMCABC.sample with distances that are real, infinite or NaN (Nan/Smc) | simulation: every step with replaced distances is the step with NaN, for counts below thresholds between the last and the first one; then the theorems about Verif.Smc | proved |
| C196 | One simulation whose distance is NaN does not spoil a run of APMCABC | APMCABC.sample with distances that are real, infinite or NaN (Nan/Apmc) | the quantile of a list with NaN is NaN, and comparisons with it are false; induction on the steps for lists of numbers | partial |
| C197 | SABC never prefers a simulation whose distance is NaN | SABC.sample with distances that are real or NaN (Nan/Sabc) | case analysis for single moves; simulation of the steps after the first one by those of Verif.Sabc with replaced distances | partial |
| C198 | RSMCABC does not keep a particle whose distance is NaN | RSMCABC.sample with distances that are real, infinite or NaN, and any sort that permutes, leaves runs without descent as they are and sorts numbers (Nan/Rsmc) | comparisons with NaN are false; invariant that all particles are NaN, by induction on the steps; simulation by Verif.Rsmc for numbers | partial |
| C199 | A simulation whose distance is NaN does not stop ABCsubsim from moving | ABCsubsim.sample with distances that are real, infinite or NaN, and the same kind of sort (Nan/Subsim) | comparisons with NaN are false; induction on the length of the chain; simulation by Verif.Subsim for numbers | partial |
| C20 | Distributed data sets never collide | Mpi/Program: data-set ids, stores and caches of scheduler and leaders over programs of calls | refinement of an id-free specification | proved |
| C200 | A particle whose likelihood is not a number does not spoil a run of PMC | PMC.sample with log-likelihoods that are real, infinite or NaN (Nan/PmcLik) | case analysis of the largest log-weight; induction on the iterations, from which a chain of stages is built | partial |
| C201 | The number of simulations of RejectionABC tells the acceptance probability | RejectionABC tasks and rounds with the random numbers of C177 (Rejection/Cost) | the law of the first accepted position is geometric; its moments; strong law of large numbers | proved |
| C202 | Burn-in drops the beginning of the chain | two runs of the MCMC model of C23 that begin in the same way (Mcmc/Burnin) | relational invariant over the steps: same state, records of one are the records of the other without the first b | proved |
| C203 | Densities need to be known up to a constant factor only | the models of the seven samplers, run with the scaled and the original densities (Scale) | both runs are in lock step: ratios and normalised weights are equal, supports are equal; for APMCABC exact form of the difference and a run | partial |
| C204 | The unit of the distance does not matter | the models of the ABC samplers, run in two units (Units) | both runs are in lock step: comparisons, percentiles and sorting commute with the change of units; for SABC and SMCABC exact form of the difference and runs | partial |
| C205 | The first population of PMCABC and RSMCABC is a rejection sample | the models of RejectionABC, PMCABC and RSMCABC with the same prior, simulator and distance (Rejection/First) | the loops of the tasks are the same function; the populations are collected in the same way | proved |
| C206 | The order of the particles and the unit of the weights do not matter to the summaries of a journal | Journal/Model, Journal/Histogram, Cov/Model: the four summaries as functions of the table of a step | Every summary is shown to depend only on the multiset of pairs of particle and weight (sums, extremes, counts by cell); scaling goes through the sums and cancels | proved |
| C207 | A tighter threshold of RejectionABC only drops or replaces particles that are too far | Rejection/Model: loop of a task, round, journal cleanup | Induction over the loop with two thresholds: as long as both go on they are in the same state; the selection by a mask composed with a weaker mask | proved |
| C208 | The weights of PMCABC are numbers | Nan/Weights: PMCABC with numpy's division in the importance weights | Refinement to Pmc/Model step by step while all mixtures are positive; otherwise the sum of the weights is infinite, the quotients are NaN and 0, and rng.choice refuses them in the next step | partial |
| C209 | More steps continue the same run | Site/Longer: the runs of all samplers | A loop that is given fewer iterations carries out the first ones; no iteration reads the number of steps except to decide what is saved; every iteration adds one population to the journal, or stops | proved |
| C21 | Chunked distribution also computes every item exactly once | Mpi: the same transition system with a chunk size | chunk size one by C17/C18; negation for larger chunks | partial |
| C210 | full_output decides what is kept and nothing else | Site/Output: the runs of all samplers with and without full output | A simulation between the two loops: the states agree but for the journal, which without full output is empty until the last iteration | partial |
| C211 | Prior samples have the probabilities that the prior density says | Graph/Attempt, Graph/Law, Graph/LawProps, Graph/Densities, Graph/DensityLaw: an attempt draws the nodes of a list that depends on the graph only; probabilities are finite sums over sequences of random numbers, or iterated integrals | Induction over the list: each draw multiplies in the conditional probability (density) of its value, a refusal passes the remaining random numbers to the next attempt; the product is reordered into the one that pdf_of_prior computes, the iterated integral into the integral over all parameters (Fubini) | partial |
| C212 | Rejection sampling draws from the prior density times the probability of acceptance | Graph/RejectLaw: the loop of RejectionABC on the graph of models; the random numbers of all draws and simulations are one independent sequence | Induction over the trials on top of the law of one call of sample_from_prior (C211): a trial that is rejected hands the remaining random numbers to the next one; the geometric series factors out | partial |
| C213 | An interrupted operation does not affect the operations after it | Graph/Recover: what an interruption leaves is any sequence of marks, stored values and cleared flags on nodes of the graph | All traversals mark nodes of the graph only, and the final reset enters all of them whether marked or not; then C03 | partial |
| C214 | Simulators that refuse parameters do not stop a sampler | Refuse/Pmc.lean: the PMCABC task, iteration and run with a simulator that may return nothing, telling exceptions from running on; Refuse/First.lean: the tasks of the first population of the five other samplers; the rejection loop of Rejection/Model.lean, which has the guard. Specification `far`: the same sampler with total simulator and refused simulations at distance D | induction on the fuel of the loops and the number of iterations; the characterisation of raising tasks by induction with the iterates of a trial; concrete model for the violation | partial |
| C215 | Sampled pairs follow the joint law of prior and simulator | Graph/PairLaw.lean: the loop of _sample_parameter_simulation over the graph model of Graph/Model.lean, with simulators that use one element of the random stream; `expected` and `discarded` are the specification | induction on the number of rounds with the average over attempts of Graph/DensityLaw.lean; joint measurability; the integral against pdf_of_prior by meanOver_prior | partial |
| C216 | A simulation that matches the observation as well as possible is never rejected for its distance | The worker tasks, steps and runs of the samplers (Rejection, Pmc, Rsmc, Subsim, Smc and Apmc models) with a lower bound on all distances | Unfolding of the loops; for RSMCABC induction over moves and over steps with the invariant that all kept particles have the smallest distance; for APMCABC the quantile of equal distances and the boolean selection | partial |
| C217 | Posterior means and effective sample sizes are right in floating-point arithmetic | np.average and add_ESS_estimate with every operation rounded, sums as trees of additions (Floats.Summary, on the rounding of Floats.Basic and the orders of Floats.Choice) | Induction over the tree of additions for the error of a sum of numbers of any sign; a relation "equal up to k rounding errors" closed under quotient, square, sum and rounding; Bernoulli's inequality; evaluation of the rounding for the two counterexamples | partial |
| C218 | Rounding errors do not build up in the importance weights of PMCABC | _calculate_weight and the normalisation of PMCABC with every operation rounded, sums as trees of additions (Floats.Importance); the exact weights are a separate recursion | The computed weights are similar to the exact ones: equal up to a common factor and k rounding errors; a step adds n + 3 errors whatever the factor; both sum to one in the end, which bounds the factor | proved |
| C219 | The next threshold of PMCABC has been met by a particle, in floating-point arithmetic | np.percentile with every operation rounded, with the interpolation as a parameter (Floats.Threshold); PMCABC's _resample_parameter of Pmc.Model for the violation | The increment is at most half of the rounded difference, which is at most the exact difference; then rounding is monotone and keeps floats. The violation computes five roundings to nearest even | partial |
| C22 | MPI ranks are partitioned into schedulers, one leader per team, and workers | Mpi/Ranks: rank arithmetic of `MPIManager` | counting; negations for other scheduler lists | partial |
| C220 | Refused parameters do not end the drawing of training data | the task that draws a pair (with its test for too large values), the array of simulations, the loop over chunks on a stream of generators, the constructor of statistics learning with refused draws | the loop over chunks splits the range of draws; a chunk returns exactly if all its draws have data; the probability is that of a product measure | partial |
| C221 | The order of the observed models does not matter | set_parameters and pdf_of_prior on graphs (Graph.Model), combined distances and likelihoods (Joint.Model); a vector is given by an assignment of values to parameters | the nodes above the roots and their numbers of paths are permuted; both orders store the same values; sums and products of permuted lists | partial |
| C222 | Every parameter can be looked up by its name | add_user_parameters on named columns (pyDict, namedColumns of Journal.Model) and posterior_mean | induction on the list of pairs from the end: what is found under a name and which names are listed | partial |
| C223 | PMCABC leaves the caller's thresholds as they are | PMCABC.sample with the object passed as epsilon_init (a list, an array of floats or of integers), which the sampler works on if there is one threshold for each step | equality with the sampler on lists of C111, then the invariant that the thresholds used are the ones left in the list | partial |
| C224 | Thresholds given as integers work like the same numbers given as floats | as for C223, with assignment to arrays of integers | invariant over the steps: what the array holds at the next step, and what the last thresholds were | partial |
| C225 | After any restarts the journal of PMCABC can be resampled | the calls of PMCABC with their journals (as for C111) and configuration["n_samples"], Journal.resample (as for C33) | induction on the calls: sizes of all populations stored, and of the population a restart begins with | proved |
| C226 | How many simulations an iteration of PMCABC needs | PMCABC._resample_parameter and one iteration of PMCABC.sample (as for C07) with random numbers given as independent sequences of attempts | the tasks return the first accepted attempt and their number of attempts, by induction on it; moments of geometric variables as for C201 | proved |
| C227 | The weights of APMCABC are finite numbers | APMCABC.sample (as for C49) with weights that are computed by numpy's division | simulation of the run over the reals if mixtures are positive; step by step analysis of infinite weights, and concrete runs | partial |
| C228 | Moves of SMCABC and ABCsubsim never leave the threshold, also when densities underflow | SMCABC.sample (as for C42) with acceptance probabilities that are computed by numpy's division and Python's min | case analysis of the arithmetic of infinities and NaN; simulation of the run over the reals with an invariant for the prior densities of the particles; a concrete run for the violation | partial |
| C229 | SABC: the temperature follows the mean redefined distance and never stops improving moves | SABC.sample (as for C46); _schedule as the relation that its result is zero below 1e-100 and else a root of the equation | intermediate value theorem and monotonicity for the root; invariant over all steps that redefined distances and threshold are zero for the violation | partial |
| C23 | Backend operations accepted by the sequential backend behave the same under MPI | Mpi/Program: interpreters of both backends | simulation for the supported pipelines; negations otherwise | partial |
| C230 | Resampling of SABC prefers smaller distances and is always possible | SABC.sample (as for C46 and C102); resampling as draws with the probabilities that are handed to rng.choice | exponentials are monotone; Chebyshev's sum inequality for the average over the draws; runs do not depend on what the random choice does with other lists, by induction over the steps | proved |
| C231 | Resampling a journal keeps averages | Journal.resample as for C33; averages over all outcomes of the draws as finite sums | a product of sums is a sum of products over all outcomes; symmetry of the selections without replacement; a selection of all particles is a bijection | partial |
| C232 | Resampling of SMCABC keeps averages over particles and their simulations | the resampling of SMCABC.sample as for C45 and C92; averages over all outcomes of the draws as finite sums | a product of sums is a sum of products over all outcomes | partial |
| C233 | Particles of SMCABC that count are near the observation | smcRun with the three kernels of the moves as for C45 | invariant of the loop: a positive new weight needs a data set below the new threshold, and a move is accepted only to data below it | partial |
| C234 | The smallest distance of samplers that carry particles over never increases | the runs of RSMCABC, APMCABC and ABCsubsim as for C98, C100 and C104 | invariant of the loops: for every distance the particles carried over have one that is not larger, and they are in the next population | partial |
| C235 | Every particle in a journal has a positive prior density | the runs of the seven samplers as for C110, C115, C92, C98, C100, C102 and C104 | invariant of the loops over all populations, with the loop that draws proposals again by induction | proved |
| C236 | Uniform accepts its bounds exactly if some value is valid | the two checks of Uniform and the draw low + (high - low) * u per coordinate | coordinate by coordinate, from the characterisations of both checks | proved |
| C24 | A joint kernel never perturbs a parameter twice | Kernel: `_check_kernels` | fold invariant = no duplicates | proved |
| C25 | Joint kernel density is the product of the kernel densities at the right components | Kernel: joint density with the mapping of C02 | fold to product | proved |
| C26 | Multivariate kernels return one value block per model with the original sizes | Kernel: `np.split` at cumulative sizes | induction on the list of sizes | proved |
| C27 | Random walk kernel: support and probabilities agree | Kernel: random walk update and mass function | finite sums over boxes; value of the sum in every dimension | partial |
| C28 | The default kernel covers every parameter once and separates discrete from continuous | Kernel: `DefaultKernel.__init__` | permutation and class of every part | proved |
| C29 | perturb reports success exactly when the model now holds the returned vector | Kernel: `perturb` with oracle proposals | loop invariant; negations for exhaustion | partial |
| C30 | A journal keeps the last state or the whole history, consistently | Journal: state machine over additions | induction on histories | proved |
| C31 | Effective sample size lies between one and the number of particles | Journal: `essOf` | Cauchy–Schwarz | proved |
| C32 | Posterior mean stays inside the range of the samples | Journal/Model.lean: `squeeze`, `np.average`, `posterior_mean`. | Convexity; with one particle the squeezed array has no axis of particles and the call raises. | partial |
| C33 | Bootstrapping a journal only repeats stored particles and keeps names aligned | Journal: `resample` | list lemmas; negation for equal names | partial |
| C34 | Prior draws come in the requested number whatever the chunk size | Rejection: chunk loop of DrawFromPrior | loop invariant, fuel bound | partial |
| C35 | Parallel prior draws use pairwise different seeds | Rejection: sorted seeds with bumping | exact characterisation of the arrays with distinct results | partial |
| C36 | Rejection sampling returns only parameters within the threshold | Rejection: worker task and rounds | loop invariant with oracle streams | proved |
| C37 | Rejection sampling refuses inconsistent arguments and accepts all consistent ones | Rejection: argument checks | case analysis | proved |
| C38 | Fixed-budget rejection keeps exactly the simulations below the cutoff, aligned | Rejection: selection after a fixed budget | list lemmas; negation for the journal's configuration | partial |
| C39 | PMCABC thresholds never increase when only the first is given | Pmc: run as state machine, `np.percentile` | invariant over steps | proved |
| C40 | Importance weights are normalised and equal prior over mixture of kernels | Pmc: `_calculate_weight` and normalisation | algebra, invariant over steps | proved |
| C41 | PMC weights are proportional to prior times likelihood over proposal | Pmc: weights of PMC | algebra; negation for non-constant priors | partial |
| C42 | SMCABC thresholds decrease and never pass the final threshold | Smc (and Rsmc, Apmc, Sabc, Subsim for C46): bisection, weights, resampling, moves, runs | invariants over loops and steps; negations by concrete runs | proved |
| C43 | Bisection stays in its bracket, terminates and brackets a sign change | Smc (and Rsmc, Apmc, Sabc, Subsim for C46): bisection, weights, resampling, moves, runs | invariants over loops and steps; negations by concrete runs | proved |
| C44 | SMCABC weights are a probability vector | Smc (and Rsmc, Apmc, Sabc, Subsim for C46): bisection, weights, resampling, moves, runs | invariants over loops and steps; negations by concrete runs | proved |
| C45 | SMCABC keeps each particle together with its own simulation | Smc (and Rsmc, Apmc, Sabc, Subsim for C46): bisection, weights, resampling, moves, runs | invariants over loops and steps; negations by concrete runs | partial |
| C46 | A sequential run that stops early still returns its result | Smc (and Rsmc, Apmc, Sabc, Subsim for C46): bisection, weights, resampling, moves, runs | invariants over loops and steps; negations by concrete runs | partial |
| C47 | RSMCABC: an accepted proposal becomes the particle | Rsmc: the r moves of a particle | invariant; negation for all models | partial |
| C48 | RSMCABC thresholds never increase and the population size is constant | Rsmc: thresholds and replenishing | invariant over steps | proved |
| C49 | APMCABC keeps the population size and an alpha fraction below the threshold | Apmc: thresholds and populations | invariant over steps; negation by witness | partial |
| C50 | ABCsubsim keeps the population sorted, complete and aligned | Subsim: sorting, chains | invariant over steps; negation by witness | partial |
| C51 | SABC distance smoothing is a monotone map into [0,1] | Sabc: `_smoother_distance` and population | monotone arithmetic; negation at the smallest reference distance | partial |
| C52 | MCMC returns exactly the requested chain and repeats the state on rejection | Mcmc: chain with and without bounds | invariant over the loop | partial |
| C53 | The Metropolis-Hastings acceptance rule satisfies detailed balance | Mcmc: acceptance rule | algebra, finite sums, derivative of the transformation | proved |
| C54 | Restarting MCMC from a journal extends the chain consistently | Mcmc: restarts | induction on the list of restarts | proved |
| C55 | Bounded-variable transformation is a bijection between the box and the whole space | Transform: logit transformations over the reals; integer and single precision input as separate branches | `Real.log`, `Real.exp`, `HasDerivAt`; negations by witness | partial |
| C56 | The reported log Jacobian is the logarithm of the derivative | Transform: logit transformations over the reals; integer and single precision input as separate branches | `Real.log`, `Real.exp`, `HasDerivAt`; negations by witness | partial |
| C57 | Caching the observed statistics never changes a distance | Distance: cache of observed statistics | invariant over histories of calls | partial |
| C58 | A combined distance is a convex combination within its declared maximum | Joint: LinearCombination | finite sums; extended reals for the maximum | partial |
| C59 | Euclidean distance between data sets is symmetric and non-negative | Distance: Euclidean | algebra | proved |
| C60 | MMD and energy estimates are symmetric and non-negative where promised | Distance: MMD, energy distance and the declared flags | finite sums; positive definiteness of the Gaussian kernel and negative type of powers (Psd) | partial |
| C61 | Combined log-likelihood and combined likelihood agree | Joint: ProductCombination, SumCombination | `Real.log` of products | proved |
| C62 | Polynomial expansion has the documented columns in the documented order | Statistics: `_polynomial_expansion` | list lemmas | proved |
| C63 | Cross-validation groups are balanced and cover every sample | LogReg: fold numbers | counting | partial |
| C64 | Memoisation is transparent | Memo: `cached` and its table | invariant over histories | partial |
| C65 | Statistics learning keeps parameters and simulations aligned and splits them without overlap | Learning: preparation of training and validation sets | list lemmas and permutations | partial |
| C66 | Triplets for distance learning are well formed | Nn: similarity matrix and triplet selection | case analysis over oracle choices | proved |
| C67 | Early stopping restores the best earlier network | Nn: `fit` with early stopping, weights as references | invariant over epochs; negation | partial |
| C68 | A training call is not influenced by earlier ones | Nn: training calls with a shared default dictionary | state machine over calls | partial |
| C69 | Weighted Wasserstein distance normalises and validates its weights | Wasserstein: weight checks | algebra | proved |
| C70 | Model selection uses the model that generated each reference simulation | Selection: reference table and labels | list lemmas; negations | partial |
| C71 | Generating from a journal pairs each parameter with its own simulations and weight | Journal/Model.lean: GenerateFromJournal with the final reshape of the simulations. | List lemmas; negations. | partial |
| C72 | The simulator is run at the parameters that were set | Models/Simulate: inputs of the simulator | induction on the graph | partial |
| C73 | Uniform prior: density, support and normalisation agree | Models: Uniform | integral of an indicator | proved |
| C74 | Evaluating the prior density does not change the parameter vector | Models: StudentT density with in-place subtraction | computation; negation | partial |
| C75 | A simulation budget is spent exactly | Rejection: budget loop | loop invariant | partial |
| C76 | Any positive number of samples can be requested from rejection sampling | Rejection: seeds of `n_samples` squared | arithmetic | partial |
| C77 | Each call of sample is a fresh run | Pmc: state kept between calls | relation between runs; negation | partial |
| C78 | Standard MCMC kernel of SMCABC satisfies detailed balance | Smc: acceptance probability of kernel 0 and its use | algebra | proved |
| C79 | SABC: the recorded distances belong to the recorded particles | Sabc: population | invariant over steps | proved |
| C80 | BoundedVarScaler is a bijection and scales its training data into the feature range | Transform/Scaler | as C55, min-max arithmetic | proved |
| C81 | MCMC bounds apply to the parameter they are given for | Mcmc/Bounds: dictionary to arrays | list lemmas | proved |
| C82 | Distances do not depend on the order of observations or on units | Distance: nearest-neighbour estimators | permutations, sorted lists, scaling | proved |
| C83 | No distance exceeds its declared maximum | Distance, LogReg: values and `dist_max` | inequalities | proved |
| C84 | Statistics are computed observation by observation | Statistics: composition of statistics | list lemmas | proved |
| C85 | Reference data of the logistic-regression likelihood come from the prior predictive | LogReg: reference table | list lemmas; negation | partial |
| C86 | The log-likelihood of several observations is the sum over the single ones | Likelihood, LogReg: log-likelihoods | sums over observations | proved |
| C87 | The Wasserstein distance is a metric on weighted samples and convergence lists have one entry per pair | Wasserstein: optimal transport cost as infimum over couplings | gluing of couplings | proved |
| C88 | Semiautomatic statistics are least-squares predictors of the parameters | Learning/Semiautomatic: least squares as minimisation | normal equations | proved |
| C89 | An accepted similarity matrix allows triplets to be formed | Nn: similarity matrix | quantile of distances; negation | partial |
| C90 | The synthetic likelihood is a normal likelihood | Likelihood: Gaussian log density with Ledoit–Wolf covariance as parameter | algebra | proved |
| C91 | The rank correlation of the semiparametric likelihood is a correlation matrix | Likelihood: rank correlation | sums of ranks | partial |
| C92 | SMCABC runs follow the published algorithm | Smc: whole runs; separate description of moves, weights, thresholds and histories in Smc/Spec | refinement: every run matches a history of the specification | proved |
| C93 | The r-hit kernels work for every positive r | Smc: the r-hit kernels with the argument r | case analysis; negation for r = 1 | partial |
| C94 | The r-hit kernels satisfy detailed balance | Smc: the loops of the r-hit kernels on independent trials (Chance) | law of the number of trials by induction; balance of flows by algebra | proved |
| C95 | Drawing refused proposals again does not bias the moves of SMCABC | Smc: the loop that draws refused proposals again, on independent draws and as a program with random draws | law of the loop as a geometric series; flows balanced exactly if refusal probabilities agree; negation; invariant measure of the moves | partial |
| C96 | The next threshold of SMCABC keeps the fraction alpha | Smc: bisection for the next threshold | invariant of the bisection; negation | partial |
| C97 | Importance weights use the density that particles are drawn from | Pmc: weights and the loop that draws refused proposals again | law of the loop; negation on two values | partial |
| C98 | RSMCABC runs follow the algorithm | Rsmc/Spec: relational tasks and History; Rsmc: state machine | refinement: invariant Follows over the loop; model run implies History | proved |
| C99 | RSMCABC makes enough attempts to move each particle | Rsmc: number of attempts of the next step | rounded logarithm characterised by powers; negation in every case that matters | partial |

Properties that cannot be expressed: none of the list as stated. Statistical correctness of the
samplers (convergence in distribution), quality of random number generators, numerical error and
the contents of third-party libraries (numpy, scipy, sklearn, torch, mpi4py, POT) are outside any
property listed.

## Trusted base

* **Lean's kernel** (4.33.0) and the Mathlib that is installed. No `sorry`, no `native_decide`, no
  `bv_decide`, no axioms of our own. Every property theorem depends on a subset of
  `propext`, `Classical.choice`, `Quot.sound` (checked with `#print axioms` for every theorem named
  in MANIFEST.json).
* **The transcription.** The Lean definitions were written by reading the Python text; no tool
  connects them. Every definition cites the lines it models.
* **Numbers.** Reals or rationals instead of floating point numbers. Results stated "exact
  arithmetic" in MANIFEST.json may fail by rounding. Exceptions: `Transform` models the rounding of
  the bounds to single precision as an arbitrary function and integer arrays as truncation.
  Infinite maxima of distances are `none` or the top element of the extended reals; NaN appears
  only where a result can be undefined, as `none`.
* **Termination.** Python loops without bound carry fuel. Theorems on such loops speak about calls
  that return, unless a theorem states that they return.
* **Randomness.** A worker or generator has a state of arbitrary type, and every draw is an
  arbitrary function of that state. So theorems hold for every sequence of random numbers;
  nothing is proved about their distribution, except for the discrete priors, the random walk
  kernel, the acceptance rules, and the laws of the continuous distributions (`Densities`), where probabilities are explicit.
* **Composition.** The sampler modules (`Pmc` to `Subsim`, `Mcmc`) use an abstract environment: prior
  density, simulator, kernel, distance as functions of parameter vectors. For the tasks and the
  whole runs of PMCABC, APMCABC, SMCABC, RSMCABC, SABC and ABCsubsim it is proved (`Site`, C138, C139, C146)
  that reading and setting the values of the models around these calls, on every process and with
  every backend and schedule, amounts to passing the vectors along, for graphs as described there. C154 to C156
  say the same of MCMC and PMC; where the graph's stored values matter (`Rsmc`, C47;
  `Kernel`, C29) they are modelled.
* **External libraries as parameters.** `np.percentile` and `np.argsort` are modelled; the
  optimal-transport solver (POT `emd2`) is assumed to return the minimum; the least squares fit,
  the classifiers (lasso path, glmnet), Ledoit–Wolf and kernel density estimates, quantile functions,
  random forests, neural networks and optimisers (and PyTorch's `load_state_dict`, which raises unless the keys are the same) are arbitrary functions or satisfy a stated
  specification which is shown to be satisfiable.
* **MPI.** Messages between two processes arrive in order and none is lost or made up; `gather`,
  `bcast` and `sendrecv` behave as documented: in `Nested` a collective operation takes place when all
  processes of the communicator have entered the same one. Pickling and unpickling copies an object. Crashes of processes other than by Python
  exceptions are not modelled.
* **Spark.** `SparkContext.parallelize` makes slices of consecutive elements; every attempt at a slice works on its own unpickled copy of
  the function and the sampler; the result of a slice is that of an attempt that ended; nothing is run before `collect`.

## What is modelled

| directory | code |
|---|---|
| `Graph` | graphtools.py (all), acceptedparametersmanager.py `get_mapping`, `get_accepted_parameters_bds_values`, `kernel` views; the graph part of probabilisticmodels.py |
| `Expr` | a trial of `RejectionABC._sample_parameter` on a graph with arithmetic nodes and random numbers: `forward_simulate` of the arithmetic models, `sample_from_input_models`, with `sample_from_prior`, `get_parameters`, `simulate` |
| `Models` | probabilisticmodels.py `InputConnector`, `ProbabilisticModel`, `Hyperparameter`, operator models; continuousmodels.py and discretemodels.py: input and output checks, Uniform, StudentT density, the three discrete mass functions |
| `Kernel` | perturbationkernel.py: joint, normal, Student, random walk (shapes, mass function), default kernel; graphtools.py `perturb`; `Kernel.Density`: laws of the draws and densities |
| `Mpi` | backends/mpi.py `map`, `collect`, `parallelize`, `broadcast`, `delete`; mpimanager.py; backends/base.py dummy backend |
| `Journal` | output.py: additions, getters, weights, mean, ESS, `resample`, `GenerateFromJournal`, `plot_posterior_distr`, `traceplot`, `plot_ESS` |
| `Rejection`, `Pmc`, `PmcLik`, `Smc`, `Rsmc`, `Apmc`, `Sabc`, `Subsim`, `Mcmc` | inferences.py: DrawFromPrior, RejectionABC, PMCABC, PMC, SMCABC, RSMCABC, APMCABC, SABC, ABCsubsim, MCMCMetropoliHastings; `Pmc.Target`, `Pmc.LikTarget`: the resampling of PMCABC and PMC as programs with random draws; `Redraw`, `Smc.Redraw`, `Subsim.Redraw`, `Sabc.Redraw`: moves whose proposals are drawn again; `Pmc.Exact`, `Pmc.ExactMeans`, `Apmc.Exact`, `Pmc.Averages`, `Apmc.Target`: posterior means from independent particles of PMCABC, PMC and APMCABC; `Mcmc.Ergodic`, `Mcmc.Averages`: the laws of all states of the MCMC chain and of sums over them; `Rejection.Averages`, `Rejection.Limit`: the samples of RejectionABC as a program with random draws; `Smc.Target`: one particle of SMCABC with its weight as a program with random draws. `Sabc.Temperature` takes the result of `SABC._schedule` as a root of its equation: that scipy's `fsolve` ends at a root is trusted |
| `Transform` | transformers.py |
| `Distance`, `Joint`, `LogReg`, `Wasserstein` | distances.py, jointdistances.py, jointapprox_lhd.py, the classifier parts of approx_lhd.py; `LogReg.Scores`: the classifier distance in terms of folds and labels |
| `Likelihood` | approx_lhd.py: synthetic and semiparametric likelihood |
| `Statistics` | statistics.py: `Statistics`, `Identity`, `LinearTransformation` |
| `Learning`, `Nn` | statisticslearning.py base classes and `Semiautomatic`; NN_utilities: data sets, similarity, `fit` |
| `Deriv` | NN_utilities/networks.py `createDefaultNNWithDerivatives`, losses.py Fisher losses, statisticslearning.py losses, batches, batch normalisation and early stopping of `ExponentialFamilyScoreMatching` |
| `Selection` | modelselections.py |
| `Memo` | utils.py |
| `Cov`, `Network` | perturbationkernel.py `calculate_cov`, `NetworkRandomWalkKernel`; the stabilised matrices of the samplers; output.py `posterior_cov` |
| `Densities` | continuousmodels.py Normal, StudentT, LogNormal, Exponential, MultivariateNormal, MultiStudentT: checks, laws of the samplers, densities; discretemodels.py Poisson. Trusted: how numpy makes these draws from uniform, normal and gamma numbers, and scipy's density formulas |
| `Schedule` | backends/mpi.py, base.py and spark.py `map` with tasks that change the sampler; inferences.py `RejectionABC._sample_parameter` on the graph |
| `Nested` | backends/mpi.py `NestedParallelizationControllerMPI`, `BackendMPIWorker`, `BackendMPILeader` (teams with several processes per model); graphtools.py `simulate` with a controller |
| `Site` | inferences.py tasks and `sample` methods of PMCABC, SMCABC, RSMCABC, APMCABC, SABC, ABCsubsim, MCMC and PMC on the graph of models (`perturb`, `pdf_of_prior`, `set_parameters`, `simulate` with stored values) |
| `Floats` | inferences.py `_bisection` and the normalisation of weights in floating-point arithmetic (IEEE 754 binary64 without bounds on exponents); graphtools.py `pdf_of_prior` and the loops of proposals with products of binary64 with gradual underflow, without overflow (`Underflow`, `Prior`). Trusted: the tolerance 2^-26 of numpy's `choice` |
| `Nan` | inferences.py `RejectionABC._sample_parameter` and its budget mode, `PMCABC.sample` and `_resample_parameter`, `MCMCMetropoliHastings.sample` without a journal file, `PMC.sample` without initial points, `SMCABC.sample`, `APMCABC.sample`, `RSMCABC.sample`, `ABCsubsim.sample`, with distances and log-likelihoods that may be infinite or NaN; `SABC.sample` with distances that may be NaN (`rng.binomial(1, nan)` raises). `PMCABC.sample`, `APMCABC.sample` and `SMCABC.sample` with prior and kernel densities that may be computed as zero (`Weights`, `ApmcWeights`, `SmcDensities`). Trusted: comparisons with NaN are false, `min(1, x)` of Python is 1 unless `x < 1`, densities are numbers of numpy, whose division does not raise, `np.max` and `np.percentile` with NaN give NaN, `rng.choice` raises for probabilities that are NaN, `np.cov` does not raise for weights that are NaN, `np.percentile` of infinite numbers is NaN (numpy 1.20 and later), `np.exp` and the arithmetic with infinities are those of IEEE 754; `sorted` permutes, leaves a list without descents as it is and sorts numbers in a stable way (`Sorts`); finite numbers are real |
| `Embedding` | statistics.py `NeuralEmbedding`; NN_utilities/networks.py default networks and wrappers, utilities.py `save_net`, `load_net`, losses.py contrastive and triplet losses, trainer.py epochs |
| `Scale`, `Units` | no code of their own: pairs of runs of the sampler models, with densities that differ by constant factors or with distances in other units |
| `Witness` | no code: theorems of the other modules applied to concrete runs and data, which shows that their hypotheses are met |

## What is not modelled

Drawing (matplotlib, density estimates; what is drawn is in `Journal.Plot`), statisticslearning.py `plot_losses`, pickling itself (`Journal.save`, `fromFile`),
Spark itself, optimisers, floating-point arithmetic outside of `Floats`,
scipy and numpy themselves, logging and verbosity.

## Disagreements between code and property

* **C01** (Setting then reading parameters gives back what was set): Proved for all graphs in which no root is an input of a root; the second theorem shows that this condition is needed. Theorems: `Graph.C01_nested_roots_violated`.
* **C03** (Graph operations leave no residue for the next operation): Any history of calls that return. The second theorem shows that marks stay behind when set_parameters raises (vector too short). Theorems: `Graph.C03_after_exception_violated`.
* **C05** (A rejected parameter vector leaves the stored parameters untouched): The code violates the property: the entries before the rejected one are stored. The partial theorem says exactly what is stored. Theorems: `Graph.C05_rejected_leaves_values_violated`.
* **C06** (Whether a parameter vector is accepted depends only on that vector): The code violates the property for priors whose support depends on a parameter that comes later in the order. C06_exact says for every vector and every history when the code accepts; the partial theorems cover checks that read only parameters earlier in the order, or no stored value. Theorems: `Graph.C06_acceptance_history_violated`.
* **C07** (Prior density is the product of the conditional densities, each free parameter counted once): The code violates the property when a discrete parameter is reached along two paths. The partial theorem covers all other graphs. Theorems: `Graph.C07_shared_discrete_violated`.
* **C08** (Evaluating the prior density does not change the model or its argument): The code violates the property: pdf_of_prior stores its argument. The partial theorem says what is stored. Theorems: `Graph.C08_density_changes_values_violated`.
* **C101** (APMCABC weights of old and new particles are on one scale): violated: kept weights are normalised to sum one, weights of new particles are not Theorems: `Apmc.C101_violated`, `Apmc.C101_run_violated`.
* **C103** (SABC moves satisfy detailed balance for every kernel): Holds exactly when the kernel is symmetric; the kernel ratio is missing from the acceptance probability. With symmetric kernels and refused proposals, moves leave invariant the target times the probability that a proposal is not refused (C103_exact). Theorems: `Sabc.C103_violated`.
* **C105** (ABCsubsim chains are in detailed balance): Violated: all proposals of chain i are made from particle i of the first population, but the acceptance probability is that of proposals from the current state. With symmetric kernels chains of any length leave invariant the restricted prior times the density of the proposals from that particle (C105_exact). Theorems: `Subsim.C105_violated`.
* **C106** (ABCsubsim journals one covariance matrix per kernel): Violated: doubling multiplies a list, so step k has 2^k times as many matrices. Theorems: `Subsim.C106_violated`.
* **C107** (ABCsubsim adopts covariance scales with acceptable rates): Violated: the rates are measured with the old matrices and divided by ten whatever the chain length. Theorems: `Subsim.C107_violated`, `Subsim.C107_short_violated`.
* **C108** (ABCsubsim particles respect the annealing parameter): Violated: particles that start a chain get a new distance that is not compared with the annealing parameter. Theorems: `Subsim.C108_violated`.
* **C109** (The ABCsubsim annealing parameter separates the particles that go on): Violated: one particle too many is below; chain length one raises an IndexError. Theorems: `Subsim.C109_violated`.
* **C112** (number_of_simulations counts all simulations behind the journal): Holds for restarts by the same sampler object; a new sampler starts counting from zero. Theorems: `Pmc.C112_violated`.
* **C113** (The journal lists the thresholds that were used): Holds for calls without journal file and for restarts with one step; what the list is after any restart (C113_exact): a restart with k steps appends k times k entries. If the journal was written with the thresholds in an array, a restart adds its thresholds to those in the array instead, or raises (C113_arrays_violated). Theorems: `Pmc.C113_violated`, `Pmc.C113_arrays_violated`.
* **C114** (A process that dies loses at most the step in progress): With full output every file that can be read holds the completed steps, and when the call returns the file holds the returned journal. Fails because save empties the file first, and without full output because populations are stored in the last step only. Theorems: `Pmc.C114_torn_violated`, `Pmc.C114_short_violated`.
* **C115** (A run of PMC follows the algorithm): Violated: the weights of the code count the prior density twice (C115_violated, see C41); proved with the weights that the code uses, and for priors of constant density with those of the algorithm. Theorems: `PmcLik.C115_violated`.
* **C117** (PMC starts from given initial points): Two or more initial points raise an exception (`iniPoints == None` on an array); one point with one parameter works. Theorems: `PmcLik.C117_violated`.
* **C119** (Every sampler can be restarted from a journal that it wrote): Holds for PMCABC with thresholds in lists (C111), PMC (C116), SMCABC (C118) and MCMC (C54). PMCABC given one threshold for each step in an array, the documented type, raises on restarts with another number of steps than before, unless this is one. RSMCABC goes back to the first threshold and raises when a proposal is rejected; restarts of SABC and ABCsubsim raise (SABC with epsilon zero on a used sampler stores the old population with distances zero); those of APMCABC raise unless the weights of the file sum to one, and continue as they should then. Theorems: `Rsmc.C119_rsmc_violated`, `Rsmc.C119_rsmc_run_violated`, `Rsmc.C119_rsmc_raises_violated`, `Apmc.C119_apmc_violated`, `Sabc.C119_sabc_violated`, `Sabc.C119_sabc_used_violated`, `Sabc.C119_sabc_zero_violated`, `Subsim.C119_subsim_violated`, `Pmc.C119_pmcabc_violated`.
* **C120** (The journal on disk is the journal returned): Holds for PMCABC, PMC, SABC, ABCsubsim and RSMCABC, and for SMCABC if a step is carried out; APMCABC leaves out the last population if it stops early because of the acceptance rate. The other samplers save once, at the end. Theorems: `Apmc.C120_apmc_violated`, `Apmc.C120_apmc_run_violated`.
* **C121** (Covariance matrices describe the weighted particles): Symmetric, positive semidefinite, variance of every direction, criterion for definiteness. Violated: if one particle has all the weight the correction divides by zero and there is no matrix. Theorems: `Cov.C121_violated`.
* **C122** (The network kernel walks along edges): Holds for parameters stored as arrays of size one. Violated: for plain numbers the weights are read from node 1 (line 685); for models with several outputs `pmf` raises. Theorems: `Network.C122_numbers_violated`, `Network.C122_weights_violated`, `Network.C122_dimension_violated`.
* **C123** (Results with a seed do not depend on backend and schedule): Proved for RejectionABC on the graph model with every schedule, and for whole runs of PMCABC, SMCABC, RSMCABC, APMCABC, SABC and ABCsubsim: two runs whose tasks start in states that no operation of the task can tell apart are equal. Violated: SlicedWasserstein (and LogReg) keep a generator; a prior draw outside of the declared support leaves the value of an earlier use; PMCABC with a first threshold not below the maximum of the distance returns what the graph held. Theorems: `Schedule.C123_violated`, `Graph.C123_stale_violated`, `Schedule.C123_held_violated`.
* **C124** (The particles of a run are separate draws): Bound for the fraction of seed arrays with a repetition, for every number of tasks and seeds. Violated for RejectionABC: n seeds out of n*n-1 numbers, so for every n at least a quarter of the runs return a particle twice. Theorems: `Schedule.C124_violated`.
* **C129** (An epoch uses every sample once and records the mean loss): Batches are proved. Violated: the recorded loss divides by one more than the number of batches; with one batch it is half of the loss. Theorems: `Deriv.C129_violated`.
* **C13** (Indexing a model outside its output is refused): Non-negative indices proved; negative indices are accepted by the code. Theorems: `Models.C13_negative_violated`.
* **C130** (Continuous distributions: the density function is the density of the sampler): The densities agree with the samplers for every accepted input. Documentation calls the second parameter of Normal the variance; it is the standard deviation (C130_variance_violated). numpy samplers as functions of uniform, normal and gamma numbers, and scipy formulas, are trusted descriptions; StudentT.pdf on a fresh argument (its in-place update is C74). Theorems: `Densities.C130_variance_violated`.
* **C131** (Poisson: sampler and mass function have the given rate): Sampler and mass function truncate the rate: they agree with each other, and are the Poisson law of the truncated rate; the claim holds exactly for integer rates. Theorems: `Densities.C131_violated`.
* **C132** (Multivariate distributions accept exactly symmetric positive definite matrices): Exact for symmetric matrices; in every dimension from two on some matrix that is neither symmetric nor positive definite is accepted (absolute tolerance 1e-3, Cholesky reads the lower triangle). Theorems: `Densities.C132_violated`.
* **C133** (Multivariate distributions: the density function is the density of the sampler): Holds for symmetric matrices. For MultivariateNormal an exact criterion; accepted matrices that are not symmetric break it. Infinite degrees of freedom (accepted by MultiStudentT) not modelled. Theorems: `Densities.C133_normal_violated`, `Densities.C133_student_violated`.
* **C134** (The nearest-neighbour divergence estimates are plug-in estimates): Proved for the KL and gamma divergences. The Hellinger estimate sums over the data where the plug-in estimate averages, so it is always smaller than the plug-in estimate. Theorems: `Distance.C134_hellinger_violated`.
* **C135** (The proposal covariance of MCMC changes only in burn-in, on schedule): Proved except at steps where the proposal has prior density zero: there the code skips the adaptation, although the step is a multiple of the interval. Theorems: `Mcmc.C135_violated`.
* **C136** (The kernel density is the density of the kernel's draws): Holds for the Student kernel, and for the normal kernel when all eigenvalues exceed scipy's cut-off. Violated otherwise: multivariate_normal is called with allow_singular=True, so a positive definite matrix with a small eigenvalue gets the density of a degenerate law, which ignores a parameter that the draws do move. Theorems: `Kernel.C136_normal_violated`.
* **C137** (Weighted particles of PMCABC estimate averages under the ABC posterior): Holds in the first iteration, and later when all particles of the population have the same probability of leaving the support of the prior when perturbed (in particular if they cannot leave it). Violated otherwise: perturbation is repeated until the result has positive prior density, but the weight uses the density of the unrestricted kernel. What is estimated then is given exactly (C137_exact), and averages are wrong by a factor of at most 1/s if particles stay inside with probability at least s (C137_bounds). Theorems: `Pmc.Target.C137_violated`.
* **C138** (The data behind an accepted particle were simulated with its parameters): Proved for PMCABC for graphs without arithmetic expressions as inputs of simulators, and for SMCABC (three kernels), APMCABC, SABC and ABCsubsim if also supports do not depend on other parameters. It fails with an arithmetic expression (not computed again after a perturbation), and for SMCABC with a support that depends on another parameter (the old particle is returned with the data of the proposal). RSMCABC returns the old particle with the new distance (C47). Theorems: `Site.C138_arithmetic_violated`, `Site.C138_smcabc_violated`.
* **C14** (Arithmetic on models computes the arithmetic of their values): Operation proved on the freshly drawn operand samples in dimension one; false for stored values, dimension two and more, and number ** model. Theorems: `Models.C14_fresh_violated`, `Models.C14_dimension_violated`, `Models.C14_rpow_violated`.
* **C140** (A team of processes works in step and returns the leader's result): Proved for all team sizes and commands when no nested call raises. Violated: an exception of a nested call in any process leaves the team in different collective operations for ever; workers keep deleted broadcast values. Theorems: `Nested.C140_exception_violated`, `Nested.C140_delete_violated`.
* **C141** (Random numbers of a simulation are not used again): Holds with one process per model. Violated with more: the generator is copied for the simulation, so the next draw reuses its numbers; SMCABC with an r-hit kernel can loop for ever, and RejectionABC returns particles with a wrong law (1/4 and 3/4 instead of 1/2 each). Theorems: `Nested.C141_violated`, `Nested.C141_hits_violated`, `Nested.C141_rejection_violated`.
* **C142** (Saved statistics are read back): Holds for networks in evaluation mode (or without modes) when the class is given, and for default networks with rectified linear units when the sizes are given. Violated for the default network of ExponentialFamilyScoreMatching (softplus is silently replaced) and at the crash point between network and scaler. Theorems: `Embedding.Examples.C142_violated`, `Embedding.Examples.C142_crash_violated`.
* **C143** (Learned statistics are a function of the data): Holds with a validation set, for score matching, and for the default networks. Without a validation set the network stays in training mode. Theorems: `Embedding.Examples.C143_violated`.
* **C145** (The validation loss does not depend on the batch size): Holds if the batch size divides the number of samples; otherwise the last batch has too much weight. Theorems: `Embedding.Losses.C145_violated`.
* **C147** (What a run reports about a particle is true of the models): Holds for PMCABC, APMCABC, SABC, ABCsubsim and SMCABC without resampling. Violated for RSMCABC: a run on a graph reports the distance of an accepted proposal with the old values, and no value enters after the first population. SMCABC with resampling (C45 has the counterexample): proved is that values are inside the prior and each distance is that of stored data simulated with values inside the prior. Sites as in C146. Theorems: `Site.C147_rsmcabc_violated`.
* **C148** (Dropped data sets are released by all processes): Holds for the stores of the leaders and for broadcast values. Violated: the scheduler keeps every list given to parallelize for ever, because delete_remote_pds does not touch its store. Workers keep broadcast values (C140). Theorems: `Mpi.C148_violated`.
* **C149** (Kernels can propose with the covariance matrices of the samplers): Holds for all samplers that use _compute_accepted_cov_mats, and for ABCsubsim with two or more components. Violated by ABCsubsim with one component: numpy.cov returns an array without dimensions, which is never reshaped, and every proposal raises. Theorems: `Cov.C149_subsim_violated`.
* **C15** (A stored sample always lies in the declared support): Proved when the draw passes the output check; otherwise success is reported without storing. Theorems: `Models.C15_store_violated`.
* **C150** (Synthetic likelihoods do not depend on whether statistics are stored as integers): Holds for observed statistics that are floating point numbers, if the simulated ones are too or have no ties. Violated: with integer observations the values of the distribution functions are cut to zero and there is never a finite value; with integer simulations tied ranks are cut. Theorems: `Likelihood.C150_violated`, `Likelihood.C150_ties_violated`.
* **C151** (MCMC can propose with its default covariance matrices): Holds for one kernel whose parameters are numbers. Violated: with two or more kernels (as the default kernel has for continuous and discrete parameters) line 4340 always raises IndexError, because the indices for kernels and rows are swapped; with vector parameters the matrix counts parameters and not components, and the first proposal raises. Theorems: `Mcmc.C151_kernels_violated`, `Mcmc.C151_mixed_violated`, `Mcmc.C151_vectors_violated`.
* **C152** (The adapted proposal of MCMC lets the chain move): The matrix is positive definite exactly if two of the states of the burn-in differ. Violated: if all proposals before the first adaptation are rejected, the matrix becomes zero and stays zero, and all states of the journal are the starting point (C152_run: with an acceptance rate of one); with an interval of one there is no matrix at all and the call raises unless the first proposal is outside of the prior. Theorems: `Mcmc.C152_stuck_violated`, `Mcmc.C152_journal_violated`, `Mcmc.C152_interval_violated`.
* **C154** (Data behind approximate likelihoods in MCMC): Holds for parameters that the priors accept. Violated for a starting point that a prior refuses: that set_parameters returned False is only logged, and the data come from a mixture of the new entries and the values that the graph held before. Theorems: `Site.C154_refused_violated`.
* **C155** (MCMC on every backend): Holds for starting points that the priors accept and simulators that take what the priors accept. Violated for a starting point that a prior refuses: its likelihood comes from what the graph held before the call. Theorems: `Site.C155_refused_violated`.
* **C158** (Draws come from the generator that is passed): Violated: the network kernel and the data sets of pairs and triplets call np.random, the generator of the process. What holds: the network kernel moves to neighbours, keeps shapes, and does not touch the generator passed. The other kernels draw from the generator passed (Kernel, Site). Theorems: `Network.C158_violated`, `Nn.C158_pairs_violated`.
* **C159** (Score matching trains with every number of samples): Violated: with the default batch normalisation, a last batch of one sample (17, 33, 49, ... samples with the default batch size) makes PyTorch raise. The theorem gives the exact condition. Theorems: `Deriv.C159_violated`.
* **C16** (Discrete priors: the mass function sums to one and matches the sampler's range): Proved for all three except Binomial(n,0) at negative points, where an exception is raised. Theorems: `Models.C16_binomial_violated`.
* **C160** (The embedding of the parameters is normalised): Exact arithmetic. Violated for a network of the parameters without hidden layers: the argument batch_norm has no effect. Theorems: `Deriv.C160_linear_violated`.
* **C161** (Early stopping of score matching): Violated: the saved dictionaries share memory with the networks, so the networks of the stopping epoch are kept. The epoch of the stop and the losses are as stated. Theorems: `Deriv.C161_violated`.
* **C163** (Learned statistics give the network what it was trained on): Violated for several data sets per parameter with statistics that do more than return the data (C163_violated); proved for one data set per parameter, for several with previous statistics that return the data (C163_several_partial), and for given data. Score matching always uses one. Theorems: `Learning.C163_violated`.
* **C164** (Automatic derivatives are those of each data set's own statistics): Proved for networks that treat rows one by one; for the default networks the loss equals the one with derivatives computed along with the output (C164_same). Violated by networks that mix rows (C164_violated). Theorems: `Deriv.C164_violated`.
* **C165** (Derivatives refuse entries that are not finite): Violated: NaN and negative infinity are never refused (C165_violated); what is refused is characterised exactly (C165_partial). Overflow of sums is not modelled. Theorems: `Deriv.C165_violated`.
* **C166** (MCMC leaves the posterior invariant whichever kernel of the library it is given): Holds for the normal and Student kernels with a fixed symmetric positive definite matrix, for the random walk, for the default kernel joining the two, and for the network kernel if the weights are symmetric and have the same sum at every node; then every state of a chain started in the posterior follows it. Violated by the network kernel otherwise: the acceptance rule has no ratio of kernel probabilities, and on a path of three nodes with a flat posterior a step doubles the probability of the middle. Theorems: `Mcmc.C166_violated`.
* **C168** (The next threshold of SMCABC leaves some weight): Proved when more than alpha is left at the old threshold and at most alpha within 0.001 above every threshold at which nothing is left. The property fails when all distances are at least 100000 and the distance has no maximum (the run starts at 100000 whatever the unit), and with ties: all distances 1, maximum 3, epsilon_final 0 leads to the threshold 4095/4096 and to NaN weights. Theorems: `Smc.C168_units_violated`, `Smc.C168_ties_violated`.
* **C169** (The search for the next threshold of SMCABC ends in floating-point arithmetic): Proved for all ends with 4 u M at most the tolerance, for Python's floats and the tolerance 0.001 up to 10^12 (at most 50 halvings), with the bracket of the sign change. It fails for larger numbers: if the sign changes above 2^44 (about 1.8 10^13) and not at a zero, the search never ends, for every function and all ends (C169_python_violated); C169_endless_violated is the condition for any format. Overflow and underflow are not modelled. Theorems: `Floats.C169_violated`, `Floats.C169_endless_violated`, `Floats.C169_python_violated`.
* **C171** (PMC makes weights out of log-likelihoods of every size): Proved if at least one log-weight is a number, with underflow of the exponential function and of the division. Fails if all log-weights are minus infinity: all weights are NaN then. Theorems: `Floats.C171_violated`.
* **C173** (Weighted particles of PMC estimate averages under the posterior): Holds for priors that are uniform on their support if all particles have the same probability of leaving the support when perturbed. Violated for other priors: the prior density enters the weights twice, and the particles estimate averages under likelihood times the square of the prior density. Theorems: `Pmc.LikTarget.C173_violated`.
* **C179** (Weighted particles of SMCABC estimate averages under the ABC posterior): Proved if the initial threshold has all parts of a simulation on one side and proposals are never refused, or refused with the same probability from all values (C179_even). With other refusals the estimates after k steps are right up to a factor given by the largest probability of a refusal (C179_bounds). For a first threshold that separates the parts the negation is proved. Thresholds and populations are fixed in advance; with resampling the particles lose their simulations (C45). Theorems: `Smc.C179_parts_violated`.
* **C180** (Plots of the posterior show the parameters in their labels): For parameters with one component and names that are all different; for a name given twice the negation is proved. Drawing and density estimates are not modelled. Theorems: `Journal.C180_twice_violated`.
* **C181** (Ranges given for plots are used and left as they are): Lists of two numbers are used and stay; the code changes dictionaries that lack a parameter and refuses all arrays. Theorems: `Journal.C181_ranges_violated`, `Journal.C181_array_violated`.
* **C182** (Posterior means of PMCABC and PMC converge): Convergence and error bounds when all previous particles leave the support with the same probability (and, for PMC, uniform priors). Violated otherwise: there the estimated probability of a set tends to a wrong number (C182_violated). For all populations and priors the limit is given exactly (C182_pmcabc_exact, C182_pmc_exact), and it is off by a factor of at most 1/s if particles stay inside with probability at least s (C182_pmcabc_bounds). Theorems: `Pmc.Averages.C182_violated`.
* **C183** (Every kernel of a joint kernel proposes with its own matrix): Holds for all samplers with one factor and for PMC with at least as many factors as kernels. Violated by PMC with fewer factors than kernels: zip drops the matrices of the last kernels, and every proposal raises an IndexError (C183_pmc_violated). Theorems: `Cov.C183_pmc_violated`.
* **C184** (Averages over the journalled particles of APMCABC are ABC posterior averages): True of the particles below the threshold, which APMCABC keeps for the next step (later steps: if all previous particles leave the support with the same probability; for other populations the limit is given exactly and bounded). Violated by the journal, which lists the new particles whatever their distance: their averages converge to prior averages, for all populations up to a factor at the boundary. Theorems: `Apmc.Target.C184_first_violated`, `Apmc.Target.C184_later_violated`, `Apmc.Target.C184_example_violated`, `Apmc.Target.C184_later_bounds_violated`.
* **C185** (The trace plot follows each parameter through the chain): Violated exactly by chains with one sample of a parameter with several components (C185_exact): squeeze removes the step axis, and the components are drawn as steps. Theorems: `Journal.C185_violated`.
* **C186** (The plot of effective sample sizes keeps below its line): Violated when the last population is smaller than an earlier one, as after a restart with fewer samples: the line is at the size of the last population. C186_sizes says for populations of any sizes which points are below, on and above the line. Theorems: `Journal.C186_violated`.
* **C187** (With bounds the Metropolis-Hastings sampler samples the posterior of the parameters themselves): With bounds for two or more parameters that are single precision numbers, and a fixed symmetric positive definite matrix for the normal or Student kernel. Violated for one bounded parameter (every call raises) and by rounded bounds (C55). Theorems: `Mcmc.C52_one_bounded_violated`.
* **C188** (The adapted proposal matrix is the covariance of the chain where proposals are made): Violated with bounds: proposals are made in the transformed space, the matrix is computed from the states before the transformation. Violated by the interval one: the matrix of a single state has one row, and the next proposal raises. Theorems: `Mcmc.C188_bounds_violated`, `Mcmc.C188_first_violated`.
* **C189** (A process that dies leaves the journal of a shorter run): With full output (SABC: always) the file holds what it held before, or nothing that can be read, or the journal of the same call with fewer steps. Violated: saving empties the file first; without full output the journals saved before the last step have no population. Theorems: `Files.C189_smcabc_violated`, `Files.C189_rsmcabc_violated`.
* **C19** (A failing task makes the collect fail, whichever worker ran it): An exception class that cannot be rebuilt from one string kills a leader and deadlocks the scheduler. Theorems: `Mpi.C19_unbuildable_exception_violated`.
* **C190** (Parameters that reach the simulator through arithmetic are informed by the data): Holds if expressions are formed of constants only (C190_partial). Otherwise an expression draws fresh values of its inputs: parameters that are used in expressions only, and have constant inputs, are returned with their prior probabilities, whatever the data (C190_prior_violated, for every graph; C190_violated is a coin X with simulator X + X). C190_law says what is sampled from in general. Theorems: `Expr.C190_prior_violated`, `Expr.C190_violated`.
* **C191** (A proposal with positive prior density is not refused because of the number of parameters): If densities are at least 2^-b at the vector and the exponents add up to at most 1074, pdf_of_prior in floating point is positive, at least 2 to the minus sum (C191_partial). If densities are at most 2^-b and the exponents add up to 1075 or more, the loop of proposals never ends, for every kernel (C191_violated); for 108 or more parameters that are uniform on an interval of length 1024 this happens although with real numbers the first proposal is accepted (C191_box_violated). Theorems: `Floats.C191_violated`, `Floats.C191_box_violated`.
* **C192** (A simulation whose distance is not a number is not accepted): Holds for RejectionABC and for whole runs of PMCABC if no distance is NaN (C192_partial, C192_run_partial). Fails otherwise: the loops go on while the distance is greater than the threshold, which is false for NaN, so the first simulation with a NaN distance is returned (C192_violated); exactly what a task returns is C192_task, and its law, the prior given that the distance is at most the threshold or NaN, is C192_law. In PMCABC one NaN makes the threshold of the next step NaN, also if the user gave one, and that step makes no simulation: its particles are what the models held before (C192_next_violated); if the distance has no finite maximum this lasts to the end of the run (C192_run_violated). C192_agrees: for real distances the model is that of Verif.Pmc. Theorems: `Nan.C192_violated`, `Nan.C192_next_violated`, `Nan.C192_run_violated`.
* **C193** (With a fixed budget, simulations whose distance is not a number are dropped): Holds for a cutoff given as a threshold (C193_partial: the kept simulations are exactly those below it, in their order, none of them NaN) and for a quantile if no distance is NaN (C193_quantile_partial). With a quantile one NaN among the distances makes the cutoff NaN, and the call raises (C193_violated). Theorems: `Nan.C193_violated`.
* **C194** (A proposal whose likelihood is not a number is refused, and nothing else changes): Proposals with likelihood NaN or zero are never accepted (C194_refused), so a run visits only its starting point and points with a likelihood that is neither (C194_visits); if the starting point is not NaN the run is the one in which NaN counts as likelihood zero (C194_partial), and the decision is that of Metropolis-Hastings with the likelihoods (C194_decision). Fails if the log-likelihood of the starting point, drawn once from the prior, is NaN (or infinite): then every proposal is refused and all samples are the starting point (C194_start_violated). C194_agrees: for real log-likelihoods the model is that of Verif.Mcmc. Theorems: `Nan.C194_start_violated`.
* **C196** (One simulation whose distance is NaN does not spoil a run of APMCABC): Holds if no distance is NaN: the model is then Verif.Apmc (C196_partial). Fails otherwise: np.percentile gives NaN, no particle is carried over to the next step (C196_step_violated), and a run of two steps or more with a NaN in the first population ends with an exception (C196_run_violated). Theorems: `Nan.Apmc.C196_step_violated`, `Nan.Apmc.C196_run_violated`.
* **C197** (SABC never prefers a simulation whose distance is NaN): Holds if no distance is NaN (C197_partial). Fails otherwise: in the first population a NaN raises (C197_first_violated); afterwards its redefined distance is zero, the best possible one (C197_smooth_violated), and a move to it is accepted with every random number if the prior density does not drop (C197_move_violated); C197_run_violated is a run whose journal ends with such a particle. Exactly (C197_exact): the run is the one in which NaN is replaced by the smallest distance of the first tries. Infinite distances are not in the model of SABC. Theorems: `Nan.Sabc.C197_smooth_violated`, `Nan.Sabc.C197_first_violated`, `Nan.Sabc.C197_move_violated`, `Nan.Sabc.C197_run_violated`.
* **C198** (RSMCABC does not keep a particle whose distance is NaN): Holds if no distance is NaN or infinite: a run of Verif.Rsmc that ends is the run here (C198_partial); and for moves: a proposal whose distance is NaN is refused (C198_move). Fails otherwise: in the first population a NaN is accepted at once, whatever the threshold (C198_first_violated); if the particles that are kept have the distance NaN, the next threshold is NaN, nothing moves, and all particles have the distance NaN (C198_step_violated), until the end of the run (C198_run_violated). Theorems: `Nan.Rsmc.C198_first_violated`, `Nan.Rsmc.C198_step_violated`, `Nan.Rsmc.C198_run_violated`.
* **C199** (A simulation whose distance is NaN does not stop ABCsubsim from moving): Holds if no distance is NaN or infinite: the run is that of Verif.Subsim (C199_partial); and for moves: a proposal whose distance is NaN is refused (C199_move, C199_chain). Fails otherwise: a NaN at one of the two places that the annealing parameter is computed from makes it NaN (C199_anneal_violated); then no proposal is accepted (C199_stuck_violated), every chain of the next step repeats one particle of the last one, and the run does not stop (C199_step_violated). Theorems: `Nan.Subsim.C199_stuck_violated`, `Nan.Subsim.C199_anneal_violated`, `Nan.Subsim.C199_step_violated`.
* **C200** (A particle whose likelihood is not a number does not spoil a run of PMC): Holds for log-likelihoods of minus infinity next to numbers: such particles get weight zero and the others the weights of C41 (C200_weights). Fails for a NaN: it makes all weights NaN, as plus infinity does, or log-likelihoods that are all minus infinity (C200_weights_violated); in the last step such weights go into the journal, which cannot be restarted from (C200_restart_violated); in an earlier step the next one raises (C200_run_violated, C200_pair_violated). C200_partial describes every run that returns. C200_numbers: with numbers only the model is Verif.PmcLik. Theorems: `Nan.PmcLik.C200_weights_violated`, `Nan.PmcLik.C200_run_violated`, `Nan.PmcLik.C200_restart_violated`, `Nan.PmcLik.C200_pair_violated`.
* **C203** (Densities need to be known up to a constant factor only): Proved for MCMC (the recorded log-likelihood moves by the constant), PMC with positive kernel density, PMCABC, SMCABC, RSMCABC, SABC and ABCsubsim. APMCABC violates it: the weights of new particles are multiplied by the quotient of the factors and put beside the normalised weights of the particles carried over, which are not (C203_apmc_step exactly, C203_apmc_violated a run). Numbers are real: underflow and overflow are not modelled here. Theorems: `Scale.C203_apmc_violated`.
* **C204** (The unit of the distance does not matter): Proved for RejectionABC (for any change of distances that preserves their order), PMCABC, RSMCABC, APMCABC and ABCsubsim. SABC violates it: the threshold after the first step is computed from redefined distances, which have no unit, and the first threshold, which has (C204_sabc_first exactly, C204_sabc_violated a run; all later steps are fine). SMCABC violates it: the tolerance of the bisection is 0.001 and, without a largest distance, the first threshold is 100000 in any unit; the rest of a step is fine (C204_smc_partial, C204_smc_threshold). Theorems: `Units.C204_sabc_violated`, `Units.C204_smc_violated`, `Units.C204_smc_start_violated`.
* **C208** (The weights of PMCABC are numbers): Violated: if the mixture density of one particle is computed as zero its weight becomes NaN and the weights of the other particles 0, and any further step raises; a run that returns can only have such a population at its end. Proved if the kernel density is computed as a positive number everywhere: then the run is that of the model over the reals. Theorems: `Nan.Weights.C208_run_violated`, `Nan.Weights.C208_lost_violated`, `Nan.Weights.C208_stays_violated`.
* **C21** (Chunked distribution also computes every item exactly once): False for every chunk size of two or more: the scheduler resends the growing chunk or pops from an empty list. Theorems: `Mpi.C21_chunks_violated`.
* **C210** (full_output decides what is kept and nothing else): Proved for all samplers but APMCABC, where a run that stops early leaves an empty journal without full output (negation proved); APMCABC runs that carry out all steps are covered. Fresh calls. Theorems: `Files.C210_apmcabc_violated`.
* **C211** (Prior samples have the probabilities that the prior density says): Proved for graphs in which no discrete parameter is reached along two paths and no arithmetic node feeds a parameter; both exceptions are shown to violate it. Stated for random numbers with finitely many outcomes and for densities with respect to any sigma-finite measures. The random variables draw inside of their declared support. Theorems: `Graph.C211_shared_discrete_violated`, `Graph.C211_arithmetic_violated`.
* **C212** (Rejection sampling draws from the prior density times the probability of acceptance): Proved for graphs in which no discrete parameter is reached along two paths and no arithmetic node feeds a parameter or the simulator: for every bound on the number of trials, and in the limit of unbounded trials, where the parameters returned have the prior density times the probability of acceptance divided by its integral. A discrete parameter that feeds two others is shown to violate it; see C190 and C211 for arithmetic nodes. A single call is described for every graph. Theorems: `Graph.C212_shared_discrete_violated`.
* **C213** (An interrupted operation does not affect the operations after it): The first call after an interruption can go wrong: reading lists too few parameters, sampling draws nothing (both shown). Proved: once one operation of the graph has returned, all later calls work as on a fresh graph. The mapping of AcceptedParametersManager as that first call is left out. Theorems: `Graph.C213_get_violated`, `Graph.C213_sample_violated`.
* **C214** (Simulators that refuse parameters do not stop a sampler): Holds for RejectionABC, call by call. Fails for the other samplers: only RejectionABC looks whether simulating has returned data, the others hand None to the distance, which raises TypeError. For each of them there is a theorem saying exactly when a task of the first population, or the population, raises; for PMCABC C214_run_violated says that the run then raises, and C214_picky_violated gives a model on which RejectionABC returns and PMCABC raises. C214_returns_partial: a PMCABC run that returns is the run in which refused simulations are at any given distance; C214_accepting_partial, C214_draw_partial, C214_loop_partial: without refusals the models agree with those of Verif.Pmc, Apmc, Subsim, Smc, Rsmc, Sabc. Later populations of the samplers other than PMCABC are not modelled with refusals. Theorems: `Refuse.C214_task_violated`, `Refuse.C214_run_violated`, `Refuse.C214_picky_violated`, `Refuse.C214_apmcabc_violated`, `Refuse.C214_abcsubsim_violated`, `Refuse.C214_smcabc_violated`, `Refuse.C214_rsmcabc_violated`, `Refuse.C214_sabc_violated`.
* **C215** (Sampled pairs follow the joint law of prior and simulator): C215_pairs_partial: averages of every measurable function of the pair returned, with discarding and refusals, as an integral against the value of pdf_of_prior, up to a factor that does not depend on the function. C215_all_pairs_partial: without them the factor is one. Fails for a discrete parameter that is reached along two paths, whose density the code multiplies twice (C215_shared_discrete_violated). Arithmetic nodes that feed parameters are excluded (C190). Theorems: `Graph.C215_shared_discrete_violated`.
* **C216** (A simulation that matches the observation as well as possible is never rejected for its distance): Holds in RejectionABC and PMCABC. The other four samplers compare strictly: RSMCABC accepts nothing any more and copies its particles for the rest of the run, chains of ABCsubsim do not move, SMCABC gives all particles weight zero (NaN), APMCABC carries nothing over and fails in the next step, so that no run of two steps returns if all data sets have the same distance. Theorems: `Edge.C216_rsmcabc_move_violated`, `Edge.C216_rsmcabc_run_violated`, `Edge.C216_abcsubsim_violated`, `Edge.C216_smcabc_violated`, `Edge.C216_apmcabc_violated`, `Edge.C216_apmcabc_run_violated`.
* **C217** (Posterior means and effective sample sizes are right in floating-point arithmetic): The error bounds hold. The ranges hold only up to these errors: the mean of three samples equal to 0.1 is the float after 0.1, and the effective sample size of two particles with weights 1 and 1 - 2^-53 is the float after 2. Overflow and underflow are not modelled here. Theorems: `Floats.C217_range_violated`, `Floats.C217_ess_violated`.
* **C219** (The next threshold of PMCABC has been met by a particle, in floating-point arithmetic): Proved for the interpolation of np.percentile since numpy 1.20, and refuted for the one before, which requirements.txt does not exclude: two particles at distance 3 and epsilon_percentile=30 give a threshold less than 3, and the next step never ends if all data have distance 3. The two interpolations are written from knowledge of numpy, whose code is not in /repo. Underflow and overflow are left out. Theorems: `Floats.C219_old_violated`.
* **C22** (MPI ranks are partitioned into schedulers, one leader per team, and workers): Teams for all scheduler lists; roles only for the scheduler list [0], false for others. Theorems: `Mpi.C22_scheduler_not_zero_violated`, `Mpi.C22_two_schedulers_violated`.
* **C220** (Refused parameters do not end the drawing of training data): The code violates the property: a call that draws pairs raises exactly if one of the draws is refused, so with independent draws that are refused with probability p it returns n pairs with probability (1-p)^n, which tends to zero; learning raises for one refused draw. Proved: calls without refusals return all draws in order, for every chunk size, and learn from the training data of C65. Theorems: `Refuse.C220_pairs_violated`, `Refuse.C220_chance_violated`, `Refuse.C220_many_violated`, `Refuse.C220_learning_violated`.
* **C221** (The order of the observed models does not matter): Parameters, densities, distances and likelihoods do not depend on the order. Acceptance does: a prior whose support depends on a parameter that the order puts later is checked against the value of before (C06). Real arithmetic: sums of floating-point numbers depend on the order in their last digits. Theorems: `Graph.C221_acceptance_violated`.
* **C222** (Every parameter can be looked up by its name): Holds when names are pairwise different. Names default to the name of the distribution, and the journal keeps a dictionary: of several parameters with one name only the last is listed, under every such model. Theorems: `Journal.C222_names_violated`, `Journal.C222_default_violated`.
* **C223** (PMCABC leaves the caller's thresholds as they are): Holds with one threshold for several steps, and if no percentile exceeds the threshold given for the next step. Otherwise the sampler writes the thresholds it uses into the caller's object, and a second call with it has thresholds that are never lower. Theorems: `Pmc.C223_violated`, `Pmc.C223_second_violated`.
* **C224** (Thresholds given as integers work like the same numbers given as floats): Holds for percentiles that are integers. The sampler works on the caller's array, which cuts off decimals, so that a threshold is the larger one of the given one and the percentile rounded down. Theorems: `Pmc.C224_violated`, `Pmc.C224_integers_violated`.
* **C227** (The weights of APMCABC are finite numbers): Violated: if the mixture density of a proposal is computed as zero its weight is infinite, and the journal stores it. If that particle is carried over its weight becomes NaN and the weights of all others zero, and the next step raises; if not, the run goes on. Proved if the kernel density is computed as a positive number everywhere: then the run is that of the model over the reals, and all weights in the journal are positive numbers. Theorems: `Nan.ApmcWeights.C227_step_violated`, `Nan.ApmcWeights.C227_run_violated`.
* **C228** (Moves of SMCABC and ABCsubsim never leave the threshold, also when densities underflow): Violated by the standard kernel of SMCABC: if a density in a denominator is computed as zero the acceptance probability is min(1, NaN) or min(1, inf), which is 1 in Python, so that simulations that are too far are accepted for sure; a run can end with all weight on such a particle. Proved: the probability is always a number between 0 and 1; the r-hit kernels and ABCsubsim never accept a simulation that is too far, for all densities; the standard kernel does not if no density in a denominator is computed as zero, and then the whole run is that of the model over the reals. Theorems: `Nan.SmcDensities.C228_violated`.
* **C229** (SABC: the temperature follows the mean redefined distance and never stops improving moves): Violated when the threshold is zero: _schedule gives zero for a mean below 1e-100, and then a proposal is accepted only if its redefined distance is strictly smaller, while redefined distances of exactly the smallest first try are zero. If after two or more steps all particles have the smallest distance of the first tries, the population never changes again, whatever is proposed (C229_minimum_violated, with a run that gets there); the same from the first step on if all distances of the first tries are equal, as with discrete data (C229_stuck_violated, with a run in which every proposal matches the observation exactly). Proved: the equation has exactly one root that is not negative, between 0 and the mean; the threshold is monotone; while it is positive such proposals are accepted. That fsolve ends at the root is trusted. Theorems: `Sabc.C229_stuck_violated`, `Sabc.C229_minimum_violated`.
* **C23** (Backend operations accepted by the sequential backend behave the same under MPI): Agrees for parallelize-map-collect pipelines; collecting a source or mapping a map result breaks under MPI. Theorems: `Mpi.C23_collect_source_violated`, `Mpi.C23_map_of_map_violated`.
* **C231** (Resampling a journal keeps averages): Violated by resampling without replacement from a journal with unequal weights, which is documented to take the weights into account: with as many samples as particles every outcome has the unweighted mean, and the weights are lost (proved for all journals, with a concrete one). Proved: equality with replacement for all weights and all numbers of samples, and without replacement for equal weights. Trusted: rng.choice draws independently with the given probabilities, and without replacement with equal probabilities every selection is equally likely. Theorems: `Journal.Bootstrap.C231_subsample_violated`.
* **C232** (Resampling of SMCABC keeps averages over particles and their simulations): Violated for simulated data: the parameters are resampled, the simulations are not. Whatever the weights were and whatever is drawn, every simulation has weight 1/n afterwards, also one of weight zero that is too far from the observation (C232_simulations_violated, with a population where all weight is on near data before and half of it after); on average the pairs become all combinations of weighted parameters with unweighted simulations (C232_pairs). Proved: averages of functions of the parameters are kept. Trusted: rng.choice draws independently with the given probabilities. Theorems: `Smc.C232_simulations_violated`.
* **C233** (Particles of SMCABC that count are near the observation): Violated when the population is resampled: the simulations stay where they are and get the weight 1/n, so that the journal returned by a run with two particles has weight 1/2 on a particle at distance 2 with threshold 0.9995 (C233_near_violated). Proved for all three kernels and all runs that never resample (Del Moral version with resample at most 0). Trusted: a draw with probability zero fails, and a random choice returns one of the choices. Theorems: `Smc.C233_near_violated`.
* **C234** (The smallest distance of samplers that carry particles over never increases): Proved for RSMCABC without conditions, and for APMCABC if n_samples * alpha rounds to at least one. Violated for APMCABC with smaller alpha: n_samples particles are drawn in every step and replace the population although particles lie below the threshold (two samples, alpha = 1/4). Violated for ABCsubsim: the particles that chains start from are simulated again and their old distances are dropped, so the smallest distance goes from 1 to 6 in an example. Theorems: `Best.C234_apmcabc_violated`, `Best.C234_subsim_violated`.
* **C27** (Random walk kernel: support and probabilities agree): Support proved for all dimensions; the pmf sums to (2j+1)^(d-1), so to one only for one component. Theorems: `Kernel.C27_random_walk_violated`.
* **C29** (perturb reports success exactly when the model now holds the returned vector): Proved when the first acceptable proposal is within the limit and not the eleventh; false for exhaustion with any limit other than 10 (C29_exhausted) and for acceptance at the eleventh attempt. Theorems: `Kernel.C29_exhausted_violated`, `Kernel.C29_eleventh_violated`.
* **C32** (Posterior mean stays inside the range of the samples): Holds for entries with two or more particles, for parameters with any number of components. Violated for one particle: squeeze removes the dimension of the particles and posterior_mean raises. Theorems: `Journal.C32_single_violated`.
* **C33** (Bootstrapping a journal only repeats stored particles and keeps names aligned): Proved for pairwise different parameter names; for repeated names the negation is proved. Theorems: `Journal.C33_names_violated`.
* **C34** (Prior draws come in the requested number whatever the chunk size): Complete for sample; for pairs with n = 0 the code raises an exception (proved). Theorems: `Rejection.C34_pairs_violated`.
* **C35** (Parallel prior draws use pairwise different seeds): Exact characterisation of the arrays for which the seeds differ; others give equal seeds. Theorems: `Rejection.C35_seeds_violated`.
* **C38** (Fixed-budget rejection keeps exactly the simulations below the cutoff, aligned): The selection is proved; the model types are lost, so bootstrapping the journal raises an exception (proved). Theorems: `Rejection.C38_config_violated`.
* **C41** (PMC weights are proportional to prior times likelihood over proposal): The code uses the prior density twice; proved for constant prior density, and the negation otherwise. Theorems: `Pmc.C41_weights_violated`.
* **C45** (SMCABC keeps each particle together with its own simulation): false for runs that resample: simulations are not resampled with the parameters Theorems: `Smc.C45_simulations_violated`.
* **C46** (A sequential run that stops early still returns its result): Proved for SMCABC (exact arithmetic) and ABCsubsim. Violated: RSMCABC raises TypeError in the call that logs the stop; APMCABC returns an empty journal when it stops early with full_output=0; SABC drops the population of the step in which it stops. The partial theorems say when APMCABC and SABC keep it. Theorems: `Rsmc.C46_rsmc_violated`, `Rsmc.C46_rsmc_run_violated`, `Apmc.C46_apmc_violated`, `Sabc.C46_sabc_violated`.
* **C47** (RSMCABC: an accepted proposal becomes the particle): Rejected moves and the distances are as claimed. Violated for all models: the value returned is always the old one, because the prior density of the old value is evaluated last and leaves it in the graph; no new value ever enters the population. Theorems: `Rsmc.C47_value_violated`, `Rsmc.C47_distance_violated`, `Rsmc.C47_no_new_values_violated`.
* **C49** (APMCABC keeps the population size and an alpha fraction below the threshold): All but the population size; it is n_samples iff exactly round(n alpha) particles lie strictly below the threshold. Theorems: `Apmc.C49_size_violated`.
* **C50** (ABCsubsim keeps the population sorted, complete and aligned): Violated for every chain length that does not divide n_samples (fewer particles, and more weights than particles). Theorems: `Subsim.C50_size_violated`.
* **C51** (SABC distance smoothing is a monotone map into [0,1]): Range and population size proved; the map jumps down to 0 at the smallest reference distance, so it is not monotone. Theorems: `Sabc.C51_monotone_violated`.
* **C52** (MCMC returns exactly the requested chain and repeats the state on rejection): Proved for every call that returns. With bounds and exactly one parameter every call raises IndexError. Theorems: `Mcmc.C52_one_bounded_violated`.
* **C55** (Bounded-variable transformation is a bijection between the box and the whole space): Violated for exactly one variable (IndexError), for vectors of integers (results are cut to integers) and for bounds that are not single precision numbers. Theorems: `Transform.C55_single_violated`, `Transform.C55_integers_violated`, `Transform.C55_rounding_violated`.
* **C56** (The reported log Jacobian is the logarithm of the derivative): Violated for vectors of integers. jac_log_det_inverse_transform is exact below 100 in absolute value and within exp(-100) per variable otherwise. Theorems: `Transform.C56_integers_violated`.
* **C57** (Caching the observed statistics never changes a distance): Holds for every history in which the caller leaves observed data unchanged and compared data sets have comparable shapes. Violated after a change in place, for data that numpy compares by broadcasting, and for data sets of different sizes. Theorems: `Distance.C57_inplace_violated`, `Distance.C57_broadcast_violated`, `Distance.C57_sizes_violated`.
* **C58** (A combined distance is a convex combination within its declared maximum): Convexity and the maximum hold; with a zero weight and an infinite maximum the declared maximum is not a number. Theorems: `Joint.C58_zero_weight_violated`.
* **C60** (MMD and energy estimates are symmetric and non-negative where promised): MMD and energy distance proved (Gaussian kernel positive definite, powers of the distance of negative type). The flag is wrong for the Hellinger estimate and for callable kernels that are not symmetric. Theorems: `Distance.C60_callable_violated`, `Distance.C60_hellinger_violated`.
* **C63** (Cross-validation groups are balanced and cover every sample): Every sample gets exactly one fold. Sizes differ by at most one exactly when n is at most the number of folds, or the number of folds divides n or n + 1; for n = 11 they do not (violated). Theorems: `LogReg.C63_violated`.
* **C64** (Memoisation is transparent): The cached function agrees with the function for argument lists whose equality is identity; keys that compare equal but are different arguments (1 and True) share an entry (violated). Theorems: `Memo.C64_violated`.
* **C65** (Statistics learning keeps parameters and simulations aligned and splits them without overlap): Alignment is proved for one data set per parameter with any statistics and for any number of data sets with plain statistics; sizes and provided sets in all cases. Violated for several data sets per parameter with polynomial expansion, and for a single sample. Theorems: `Learning.C65_violated`, `Learning.C65_one_violated`.
* **C67** (Early stopping restores the best earlier network): When training stops and what the lists of losses hold is proved for all histories. The weights are those of the last epoch, not of the previous check (violated): the saved dictionary refers to the live weights. Theorems: `Nn.C67_violated`.
* **C68** (A training call is not influenced by earlier ones): Violated for calls without GPU and without dictionary: they use the options of the last call before that ran on the GPU without dictionary (C68_exact, for all programs). True of all other calls (C68_partial, C68_given, C68_cuda). Theorems: `Nn.C68_violated`, `Nn.C68_dictionary_violated`.
* **C70** (Model selection uses the model that generated each reference simulation): Proved for one process, distinct models and scalar data. Violated: later calls use the table of the first call; with results from other processes every label is zero; vector data raise. Theorems: `Selection.C70_violated`, `Selection.C70_distributed_violated`, `Selection.C70_vector_violated`.
* **C71** (Generating from a journal pairs each parameter with its own simulations and weight): Proved for one root, accepted particles and no discarding. Violated: with several roots the final reshape always raises; discarding raises an exception; a refused particle is simulated at stale values (all proved). Theorems: `Journal.C71_roots_violated`, `Journal.C71_discard_violated`, `Journal.C71_refused_violated`.
* **C72** (The simulator is run at the parameters that were set): C72_exact says for every graph with which values simulators are run. The property holds exactly if the arithmetic nodes among their inputs already store the values that follow from the vector; set_parameters does not update them. Theorems: `Models.C72_stale_violated`, `Models.C72_arithmetic_violated`.
* **C74** (Evaluating the prior density does not change the parameter vector): The code violates it for Student-t priors, whose density subtracts the mean from its argument in place. Theorems: `Models.C74_student_violated`.
* **C75** (A simulation budget is spent exactly): Proved for distances with infinite maximum; with finite maximum every task raises an exception. Theorems: `Rejection.C75_finite_violated`.
* **C76** (Any positive number of samples can be requested from rejection sampling): Proved for 2 to 46340 samples; all other numbers raise an exception. Theorems: `Rejection.C76_number_violated`.
* **C77** (Each call of sample is a fresh run): Proved: earlier calls act on the populations only through the population they left; the counter is carried on. Violated: a second call perturbs the population left by the first instead of sampling from the prior. Theorems: `Pmc.C77_ignores_prior_violated`, `Pmc.C77_second_run_violated`.
* **C85** (Reference data of the logistic-regression likelihood come from the prior predictive): Proved: with at least two rows and two columns the table has the requested number of rows, every row is simulated, and the training set labels simulations 0 and reference rows 1. Violated: the prior is sampled once and all rows are simulated at that draw; a single row or column is squeezed away and every later use fails. Theorems: `LogReg.C85_violated`, `LogReg.C85_squeeze_violated`.
* **C89** (An accepted similarity matrix allows triplets to be formed): Proved when no two samples have the same parameters. Violated: when the quantile of the distances is zero, as with repeated parameters, an empty matrix is accepted and no triplet is ever found. Theorems: `Nn.C89_violated`.
* **C91** (The rank correlation of the semiparametric likelihood is a correlation matrix): Without ties, for two or more simulations, everything is proved; with ties all but the diagonal and the bounds (C91_ties); the diagonal is then not one (violated). Theorems: `Likelihood.C91_violated`.
* **C93** (The r-hit kernels work for every positive r): Proved for r at least 2 and for the default. Violated for r = 1: version 2 always raises, version 1 divides by zero or never moves. Theorems: `Smc.C93_one_violated`, `Smc.C93_division_violated`.
* **C95** (Drawing refused proposals again does not bias the moves of SMCABC): Violated: balanced exactly if the refusal probabilities of both states agree or nothing flows. What the moves do leave invariant, for all models and proposal laws with densities, is the target times the probability that a proposal is not refused (C95_exact); it is the target itself if that probability is the same everywhere (C95_even). Theorems: `Smc.C95_violated`.
* **C96** (The next threshold of SMCABC keeps the fraction alpha): Proved when the effective sample size falls below the fraction alpha before epsilon_final. Violated otherwise: the threshold then goes down by at most 0.001 instead of to epsilon_final. Theorems: `Smc.C96_violated`.
* **C97** (Importance weights use the density that particles are drawn from): Proved when refusals are equally likely from all particles. Violated in a two-point model. In general weight times density is the prior density up to a factor between 1/(1-z0) and 1/(1-z1), if z0 and z1 bound the probabilities of refusals. Theorems: `Pmc.C97_violated`.
* **C99** (RSMCABC makes enough attempts to move each particle): violated: the logarithm is rounded down, so particles stay with probability at least const; one more attempt would suffice Theorems: `Rsmc.C99_violated`, `Rsmc.C99_example_violated`.
