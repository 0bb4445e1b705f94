{"id": "C01", "title": "Setting then reading parameters gives back what was set", "statement": "If set_parameters(p) reports success, then get_parameters() immediately afterwards returns exactly the first k entries of p (as one-dimensional arrays), where k is the reported next index, and k is the number of free parameters of the graph.", "quantifier": "every finite acyclic model graph in which no root is an input of another root, with any sharing of parents, hyperparameters and arithmetic nodes; every parameter list; every stored state", "why_tests_cant": "the graph shape (depth, sharing, repeated inputs, several roots) is unbounded, tests try two or three small graphs", "anchors": ["abcpy/graphtools.py:GraphTools.set_parameters", "abcpy/graphtools.py:GraphTools.get_parameters"]}
{"id": "C02", "title": "All views of the parameter vector use the same order and list each free parameter once", "statement": "get_parameters, set_parameters, the name mapping used for the journal and the mapping used by perturbation kernels enumerate the same free parameters, each exactly once, in the same order: first discovery in a depth-first walk of the inputs. Roots, hyperparameters and arithmetic nodes are never listed.", "quantifier": "every finite acyclic model graph in which no root is an input of another root", "why_tests_cant": "agreement of four separately written traversals on every sharing pattern cannot be enumerated", "anchors": ["abcpy/graphtools.py:GraphTools._get_mapping", "abcpy/graphtools.py:GraphTools.get_parameters", "abcpy/graphtools.py:GraphTools.set_parameters", "abcpy/acceptedparametersmanager.py:AcceptedParametersManager.get_mapping"]}
{"id": "C03", "title": "Graph operations leave no residue for the next operation", "statement": "Starting from a model on which no operation is pending, every public graph operation (sampling from the prior, reading, setting with success or rejection, ordering, mapping, prior density) returns with no pending traversal mark, so any sequence of these operations behaves as if each ran on a fresh graph.", "quantifier": "every acyclic graph, every finite sequence of operations, every accept/reject outcome", "why_tests_cant": "residue depends on the whole history of operations and on where a rejection happened", "anchors": ["abcpy/graphtools.py:GraphTools._reset_flags", "abcpy/acceptedparametersmanager.py:AcceptedParametersManager._reset_flags", "abcpy/graphtools.py:GraphTools.set_parameters", "abcpy/graphtools.py:GraphTools.sample_from_prior"]}
{"id": "C04", "title": "One successful prior draw samples every random variable exactly once, inputs first", "statement": "In each attempt of sample_from_prior every non-root node is drawn at most once and only after all of its inputs; in the successful attempt every non-root node reachable from the roots is drawn exactly once, and roots (the simulators) are not run.", "quantifier": "every acyclic graph, every sequence of random outcomes, every number of failed attempts", "why_tests_cant": "depends on graph sharing and on the position of each failed draw", "anchors": ["abcpy/graphtools.py:GraphTools.sample_from_prior", "abcpy/graphtools.py:GraphTools._sample_from_prior"]}
{"id": "C05", "title": "A rejected parameter vector leaves the stored parameters untouched", "statement": "If set_parameters(p) reports that p was rejected, the values returned by a later get_parameters() are the ones stored before the call.", "quantifier": "every graph, stored state and rejected vector", "why_tests_cant": "the position of the rejection and the stored values range over unbounded sets", "anchors": ["abcpy/graphtools.py:GraphTools.set_parameters"]}
{"id": "C06", "title": "Whether a parameter vector is accepted depends only on that vector", "statement": "set_parameters(p) accepts p exactly when every free parameter value lies in the support of its prior given the values that p assigns to its inputs; earlier stored values do not matter.", "quantifier": "every graph, every pair of stored states, every p", "why_tests_cant": "needs two histories of the same object to be compared for all vectors", "anchors": ["abcpy/graphtools.py:GraphTools.set_parameters", "abcpy/continuousmodels.py:Uniform._check_output"]}
{"id": "C07", "title": "Prior density is the product of the conditional densities, each free parameter counted once", "statement": "pdf_of_prior(models, p) equals the product, over the distinct free parameters of the graph, of that parameter's density at its entry of p given the values of its inputs.", "quantifier": "every acyclic graph in which no root is an input of another root, any sharing, any density functions, every p that can be set", "why_tests_cant": "the number of paths to a shared node grows exponentially, tests use one shared parent at most", "anchors": ["abcpy/graphtools.py:GraphTools.pdf_of_prior", "abcpy/graphtools.py:GraphTools._recursion_pdf_of_prior", "abcpy/discretemodels.py"]}
{"id": "C08", "title": "Evaluating the prior density does not change the model or its argument", "statement": "pdf_of_prior(models, p) changes neither the stored parameter values nor the numbers in p.", "quantifier": "every graph, stored state and p", "why_tests_cant": "needs every state and every prior family to be compared before and after", "anchors": ["abcpy/graphtools.py:GraphTools.pdf_of_prior", "abcpy/continuousmodels.py:StudentT.pdf"]}
{"id": "C09", "title": "Re-ordering kernel output does not depend on the order of the kernels", "statement": "get_correct_ordering(l) returns, for every list l of (model, values) pairs with distinct models, the values in the graph's parameter order; permuting l does not change the result.", "quantifier": "every acyclic graph, every list of pairs and every permutation of it", "why_tests_cant": "quantifies over all permutations and graphs", "anchors": ["abcpy/graphtools.py:GraphTools.get_correct_ordering"]}
{"id": "C10", "title": "Perturbed values reach the parameter they were drawn for", "statement": "After a joint kernel update whose result is accepted, each free parameter stores the value that the kernel responsible for that parameter produced for it, whatever the number and order of kernels and of models inside them.", "quantifier": "every graph, every assignment of parameters to kernels, every column index and random outcome", "why_tests_cant": "needs all partitions of the parameters into kernels", "anchors": ["abcpy/perturbationkernel.py:JointPerturbationKernel.update", "abcpy/graphtools.py:GraphTools.get_correct_ordering", "abcpy/graphtools.py:GraphTools.set_parameters", "abcpy/inferences.py:BaseMethodsWithKernel.perturb"]}
{"id": "C11", "title": "Selecting the accepted values of some models picks the right columns", "statement": "get_accepted_parameters_bds_values(models) returns one row per stored particle; the j-th entry of each row is that particle's value for models[j].", "quantifier": "every graph, every list of free parameters (any order), every table of particles", "why_tests_cant": "all tables and all selections", "anchors": ["abcpy/acceptedparametersmanager.py:AcceptedParametersManager.get_accepted_parameters_bds_values"]}
{"id": "C12", "title": "Nested constructor arguments are flattened left to right", "statement": "A model built from a nested list of numbers, models and sub-lists receives as inputs the left-to-right flattening of that list: a number contributes one fixed value, a model all of its output components in order, an indexed model the selected component.", "quantifier": "every nested list", "why_tests_cant": "nesting depth and length are unbounded", "anchors": ["abcpy/probabilisticmodels.py:InputConnector.from_list", "abcpy/probabilisticmodels.py:InputConnector.get_values"]}
{"id": "C13", "title": "Indexing a model outside its output is refused", "statement": "model[i] gives the i-th output component for 0 <= i < output dimension and raises IndexError for every other integer i.", "quantifier": "every model dimension and every integer index", "why_tests_cant": "all integers", "anchors": ["abcpy/probabilisticmodels.py:ProbabilisticModel.__getitem__"]}
{"id": "C14", "title": "Arithmetic on models computes the arithmetic of their values", "statement": "For models X and Y with the same output dimension d, the node X+Y (X-Y, X*Y, X/Y) holds the componentwise sum (difference, product, quotient) of the values of X and Y; X**k and k**X hold the componentwise powers.", "quantifier": "every output dimension d and every stored values", "why_tests_cant": "tests only use dimension one", "anchors": ["abcpy/probabilisticmodels.py:SummationModel", "abcpy/probabilisticmodels.py:SubtractionModel", "abcpy/probabilisticmodels.py:MultiplicationModel", "abcpy/probabilisticmodels.py:DivisionModel", "abcpy/probabilisticmodels.py:ExponentialModel", "abcpy/probabilisticmodels.py:RExponentialModel"]}
{"id": "C15", "title": "A stored sample always lies in the declared support", "statement": "After a node is drawn and the draw is reported successful, the stored value is the drawn value, and it satisfies the node's own output check.", "quantifier": "every node, every check predicate, every drawn value and previous value", "why_tests_cant": "all predicates and draws", "anchors": ["abcpy/probabilisticmodels.py:ProbabilisticModel._forward_simulate_and_store_output", "abcpy/probabilisticmodels.py:ProbabilisticModel.set_output_values"]}
{"id": "C16", "title": "Discrete priors: the mass function sums to one and matches the sampler's range", "statement": "For DiscreteUniform(lo,hi), Bernoulli(p) and Binomial(n,p): the probabilities over the values that the sampler can return sum to one, are non-negative, and vanish outside.", "quantifier": "all integer bounds lo < hi, all n, all p in [0,1]", "why_tests_cant": "infinitely many parameter values", "anchors": ["abcpy/discretemodels.py:DiscreteUniform", "abcpy/discretemodels.py:Bernoulli", "abcpy/discretemodels.py:Binomial"]}
{"id": "C17", "title": "Parallel map returns the sequential result under every schedule", "statement": "With the MPI backend, collect(map(f, parallelize(xs))) equals [f(x) for x in xs] in the same order, as the sequential backend returns, whatever the order in which workers ask for work and finish it.", "quantifier": "every list xs, every f, every number of workers >= 1, every interleaving of requests and completions", "why_tests_cant": "schedules are not controllable in a test and their number is exponential", "anchors": ["abcpy/backends/mpi.py:BackendMPIScheduler.orchestrate_map", "abcpy/backends/mpi.py:BackendMPIScheduler.map", "abcpy/backends/mpi.py:BackendMPIScheduler.collect", "abcpy/backends/base.py:BackendDummy"]}
{"id": "C18", "title": "Work distribution neither loses, repeats nor deadlocks", "statement": "During a parallel map every item is handed to exactly one worker, every worker is told to stop exactly once, the distribution loop always finishes, and it finishes only when every item has been computed.", "quantifier": "every list, number of workers and interleaving", "why_tests_cant": "all schedules, including slow and starved workers", "anchors": ["abcpy/backends/mpi.py:BackendMPIScheduler.orchestrate_map", "abcpy/backends/mpi.py:BackendMPILeader.run"]}
{"id": "C19", "title": "A failing task makes the collect fail, whichever worker ran it", "statement": "If f raises on some items, the parallel map still terminates and collect raises one of the exceptions f raised; it never returns a list containing an exception, and if f raises on no item collect raises nothing.", "quantifier": "every f, list, schedule and set of failing items", "why_tests_cant": "all schedules and failure sets", "anchors": ["abcpy/backends/mpi.py:BackendMPIScheduler.collect", "abcpy/backends/mpi.py:BackendMPIWorker.run_function"]}
{"id": "C20", "title": "Distributed data sets never collide", "statement": "Every parallelize, map and broadcast gets an identifier never used before, so collecting or reading an older data set still returns its own contents after any later operations; deleting one data set affects no other.", "quantifier": "every sequence of parallelize/map/broadcast/collect/delete operations", "why_tests_cant": "unbounded histories", "anchors": ["abcpy/backends/mpi.py:BackendMPIScheduler", "abcpy/backends/mpi.py:PDSMPI", "abcpy/backends/mpi.py:BDSMPI"]}
{"id": "C21", "title": "Chunked distribution also computes every item exactly once", "statement": "orchestrate_map with chunk size c >= 1 sends each item exactly once.", "quantifier": "every list, every c >= 1 and every schedule", "why_tests_cant": "all list lengths and chunk sizes", "anchors": ["abcpy/backends/mpi.py:BackendMPIScheduler.orchestrate_map"]}
{"id": "C22", "title": "MPI ranks are partitioned into schedulers, one leader per team, and workers", "statement": "For every communicator size, list of scheduler ranks and processes per model: each rank has exactly one role, every rank that is not a scheduler belongs to exactly one team, teams are consecutive blocks of at most processes-per-model non-scheduler ranks, and every team has exactly one leader, its lowest rank.", "quantifier": "all sizes, scheduler sets and team sizes >= 1", "why_tests_cant": "all combinations of sizes", "anchors": ["abcpy/backends/mpimanager.py:MPIManager.__init__", "abcpy/backends/mpi.py"]}
{"id": "C23", "title": "Backend operations accepted by the sequential backend behave the same under MPI", "statement": "Every program of parallelize/map/collect/broadcast calls that succeeds with the sequential backend succeeds with the MPI backend and collects the same lists.", "quantifier": "every program of backend calls", "why_tests_cant": "unbounded programs", "anchors": ["abcpy/backends/mpi.py", "abcpy/backends/base.py:BackendDummy"]}
{"id": "C24", "title": "A joint kernel never perturbs a parameter twice", "statement": "Building a joint kernel succeeds exactly when no model appears in two kernels (or twice in one).", "quantifier": "every list of kernels", "why_tests_cant": "all lists", "anchors": ["abcpy/perturbationkernel.py:JointPerturbationKernel._check_kernels"]}
{"id": "C25", "title": "Joint kernel density is the product of the kernel densities at the right components", "statement": "The joint density of moving from one parameter vector to another is the product over kernels of that kernel's density evaluated at the components belonging to its models.", "quantifier": "every graph, every kernel list, all vectors", "why_tests_cant": "all kernel partitions", "anchors": ["abcpy/perturbationkernel.py:JointPerturbationKernel.pdf"]}
{"id": "C26", "title": "Multivariate kernels return one value block per model with the original sizes", "statement": "The update of a continuous kernel splits the drawn vector into blocks that concatenate back to it, one block per model, each with the size of that model's current value.", "quantifier": "every list of block sizes and drawn vector", "why_tests_cant": "all shapes", "anchors": ["abcpy/perturbationkernel.py:MultivariateNormalKernel.update", "abcpy/perturbationkernel.py:MultivariateStudentTKernel.update"]}
{"id": "C27", "title": "Random walk kernel: support and probabilities agree", "statement": "The random walk kernel moves each component by at most jump in either direction, every such integer vector is possible, and the probabilities returned by pmf over all reachable vectors sum to one.", "quantifier": "every number of components, current vector and jump", "why_tests_cant": "all dimensions", "anchors": ["abcpy/perturbationkernel.py:RandomWalkKernel.update", "abcpy/perturbationkernel.py:RandomWalkKernel.pmf"]}
{"id": "C28", "title": "The default kernel covers every parameter once and separates discrete from continuous", "statement": "The default kernel assigns each parameter to exactly one sub-kernel: continuous ones to the normal kernel and all others to the random walk, keeping their order.", "quantifier": "every list of parameters of either kind", "why_tests_cant": "all mixtures", "anchors": ["abcpy/perturbationkernel.py:DefaultKernel.__init__"]}
{"id": "C29", "title": "perturb reports success exactly when the model now holds the returned vector", "statement": "If perturb returns [True, theta] then theta was accepted by the graph and the model holds theta; if no proposal was accepted within the allowed attempts it returns [False].", "quantifier": "every sequence of proposals and accept/reject outcomes, every attempt limit", "why_tests_cant": "rare long runs of rejections", "anchors": ["abcpy/inferences.py:BaseMethodsWithKernel.perturb"]}
{"id": "C30", "title": "A journal keeps the last state or the whole history, consistently", "statement": "After any sequence of additions, a journal of type 0 holds only the last entry of each kind and a journal of type 1 holds all of them in order; reading with no iteration or -1 gives the last, reading with i gives the i-th, and other types are refused.", "quantifier": "every sequence of additions of every kind", "why_tests_cant": "unbounded histories", "anchors": ["abcpy/output.py:Journal"]}
{"id": "C31", "title": "Effective sample size lies between one and the number of particles", "statement": "For non-negative weights with positive sum the recorded effective sample size is at least 1 and at most the number of particles, with n for equal weights, and does not change when all weights are scaled.", "quantifier": "every weight vector", "why_tests_cant": "continuum of weights", "anchors": ["abcpy/output.py:Journal.add_ESS_estimate"]}
{"id": "C32", "title": "Posterior mean stays inside the range of the samples", "statement": "For non-negative weights with positive sum the posterior mean of a parameter lies between its smallest and largest sample, scaling the weights does not change it, and equal weights give the arithmetic mean.", "quantifier": "every sample and weight vector", "why_tests_cant": "continuum", "anchors": ["abcpy/output.py:Journal.posterior_mean"]}
{"id": "C33", "title": "Bootstrapping a journal only repeats stored particles and keeps names aligned", "statement": "Every particle of Journal.resample(n) is a stored particle, there are n of them with equal weights, the values listed under each name are the columns of the resampled particles, and drawing more than stored without replacement is refused.", "quantifier": "every journal, n and random outcome", "why_tests_cant": "all journals and draws", "anchors": ["abcpy/output.py:Journal.resample"]}
{"id": "C34", "title": "Prior draws come in the requested number whatever the chunk size", "statement": "DrawFromPrior.sample(n) and sample_par_sim_pairs(n) return exactly n draws, in ceil(n/chunk) rounds of at most chunk draws.", "quantifier": "every n >= 0 and chunk size >= 1", "why_tests_cant": "all sizes", "anchors": ["abcpy/inferences.py:DrawFromPrior.sample", "abcpy/inferences.py:DrawFromPrior.sample_par_sim_pairs"]}
{"id": "C35", "title": "Parallel prior draws use pairwise different seeds", "statement": "The seeds handed to the workers in one round are pairwise different.", "quantifier": "every drawn seed array", "why_tests_cant": "collisions are rare", "anchors": ["abcpy/inferences.py:DrawFromPrior._generate_rng_pds"]}
{"id": "C36", "title": "Rejection sampling returns only parameters within the threshold", "statement": "Every particle returned by RejectionABC with threshold epsilon was obtained by simulating from it and has recorded distance at most epsilon; the simulation counter equals the number of simulator calls made.", "quantifier": "every random stream, model, distance and epsilon below the maximal distance", "why_tests_cant": "unbounded retry loops", "anchors": ["abcpy/inferences.py:RejectionABC._sample_parameter", "abcpy/inferences.py:RejectionABC._sample_n_samples_epsilon"]}
{"id": "C37", "title": "Rejection sampling refuses inconsistent arguments and accepts all consistent ones", "statement": "sample() runs exactly when either n_samples and epsilon are given, without a budget or quantile, or a budget with exactly one of epsilon and quantile is given without n_samples; otherwise it raises RuntimeError before simulating.", "quantifier": "all 16 combinations of given/omitted arguments with all values", "why_tests_cant": "values are unbounded", "anchors": ["abcpy/inferences.py:RejectionABC.sample"]}
{"id": "C38", "title": "Fixed-budget rejection keeps exactly the simulations below the cutoff, aligned", "statement": "The cleaned journal contains, in the original order, exactly the particles whose distance is below the cutoff, with their own distances and named values, one weight per particle, and the method fails if none qualifies. Everything needed to use the journal later is kept.", "quantifier": "every journal, threshold or quantile", "why_tests_cant": "all distance vectors", "anchors": ["abcpy/inferences.py:RejectionABC._journal_cleanup"]}
{"id": "C39", "title": "PMCABC thresholds never increase when only the first is given", "statement": "With one initial epsilon, each later threshold is at most the previous one, every accepted distance at step t is at most threshold t, and a wrong number of thresholds is refused.", "quantifier": "every number of steps, percentile in [0,100] and distances", "why_tests_cant": "all runs", "anchors": ["abcpy/inferences.py:PMCABC.sample", "abcpy/inferences.py:PMCABC._resample_parameter"]}
{"id": "C40", "title": "Importance weights are normalised and equal prior over mixture of kernels", "statement": "PMCABC weights are non-negative and sum to one, the first population has equal weights, and later weights are proportional to prior(theta)/sum_j w_j K(theta_j, theta).", "quantifier": "every population, weights, densities with positive mixture", "why_tests_cant": "continuum", "anchors": ["abcpy/inferences.py:PMCABC._calculate_weight", "abcpy/inferences.py:PMCABC.sample"]}
{"id": "C41", "title": "PMC weights are proportional to prior times likelihood over proposal", "statement": "After each PMC step the weight of theta is proportional to prior(theta)*likelihood(theta)/sum_j w_j K(theta_j,theta), and weights sum to one.", "quantifier": "every population, likelihood, prior and kernel", "why_tests_cant": "continuum of priors; tests use uniform priors only", "anchors": ["abcpy/inferences.py:PMC.sample", "abcpy/inferences.py:PMC._approx_log_lik_calc", "abcpy/inferences.py:PMC._calculate_weight"]}
{"id": "C42", "title": "SMCABC thresholds decrease and never pass the final threshold", "statement": "The list of thresholds is non-increasing, every threshold after the first is at least epsilon_final, and no further step is done once epsilon_final is reached.", "quantifier": "every run, every distance matrix, alpha and epsilon_final", "why_tests_cant": "all runs", "anchors": ["abcpy/inferences.py:SMCABC.sample", "abcpy/inferences.py:SMCABC._bisection"]}
{"id": "C43", "title": "Bisection stays in its bracket, terminates and brackets a sign change", "statement": "The bisection returns a point of [low, high]; it needs at most ceil(log2((high-low)/(2 tol))) halvings; if the function changes sign between the ends the returned point is an exact zero or within tol-sized half-interval of a sign change.", "quantifier": "every function, bracket and positive tolerance", "why_tests_cant": "all functions", "anchors": ["abcpy/inferences.py:SMCABC._bisection"]}
{"id": "C44", "title": "SMCABC weights are a probability vector", "statement": "New weights are non-negative and sum to one whenever at least one particle keeps a simulation below the new threshold; particles with none get weight zero; after resampling all weights are equal.", "quantifier": "every weight vector and distance matrix", "why_tests_cant": "continuum", "anchors": ["abcpy/inferences.py:SMCABC.sample"]}
{"id": "C45", "title": "SMCABC keeps each particle together with its own simulation", "statement": "At every step the stored simulation (and recorded distance) of particle i was simulated from the parameters of particle i.", "quantifier": "every run, every resampling outcome and accept/reject pattern", "why_tests_cant": "needs all resampling histories", "anchors": ["abcpy/inferences.py:SMCABC.sample", "abcpy/inferences.py:SMCABC._accept_parameter"]}
{"id": "C46", "title": "A sequential run that stops early still returns its result", "statement": "Whenever at least one step has been carried out, the returned journal contains the population of the last step carried out, also when the run stops before the requested number of steps.", "quantifier": "every run, stopping step and output mode", "why_tests_cant": "all stopping points", "anchors": ["abcpy/inferences.py:SMCABC.sample", "abcpy/inferences.py:APMCABC.sample", "abcpy/inferences.py:RSMCABC.sample", "abcpy/inferences.py:SABC.sample"]}
{"id": "C47", "title": "RSMCABC: an accepted proposal becomes the particle", "statement": "When the replenishment step accepts a proposal, the returned particle is that proposal and its recorded distance belongs to it; when it rejects, the particle keeps its value and distance.", "quantifier": "every number of repetitions, accept/reject pattern and stored state", "why_tests_cant": "all patterns", "anchors": ["abcpy/inferences.py:RSMCABC._accept_parameter", "abcpy/graphtools.py:GraphTools.pdf_of_prior"]}
{"id": "C48", "title": "RSMCABC thresholds never increase and the population size is constant", "statement": "Each new threshold is at most the previous one, all particles have distance at most the current threshold, and after replenishing there are again n_samples particles.", "quantifier": "every run", "why_tests_cant": "all runs", "anchors": ["abcpy/inferences.py:RSMCABC.sample"]}
{"id": "C49", "title": "APMCABC keeps the population size and an alpha fraction below the threshold", "statement": "Each iteration ends with n_samples particles, of which those strictly below the new threshold are carried over with weights summing to one.", "quantifier": "every run, n_samples and alpha", "why_tests_cant": "all sizes and ties", "anchors": ["abcpy/inferences.py:APMCABC.sample"]}
{"id": "C50", "title": "ABCsubsim keeps the population sorted, complete and aligned", "statement": "Each step ends with n_samples particles sorted by distance, each paired with its own distance and weight, and the new annealing threshold lies between neighbouring distances.", "quantifier": "every n_samples, chain length and run", "why_tests_cant": "all sizes", "anchors": ["abcpy/inferences.py:ABCsubsim.sample", "abcpy/inferences.py:ABCsubsim._accept_parameter"]}
{"id": "C51", "title": "SABC distance smoothing is a monotone map into [0,1]", "statement": "The redefined distance is between 0 and 1, is monotone in the raw distance, and the population size never changes.", "quantifier": "every non-negative reference sample and distance", "why_tests_cant": "continuum", "anchors": ["abcpy/inferences.py:SABC._smoother_distance", "abcpy/inferences.py:SABC.sample"]}
{"id": "C52", "title": "MCMC returns exactly the requested chain and repeats the state on rejection", "statement": "After burnin+n_samples steps the journal holds exactly n_samples states with weight one each; every state is either the previous one or an accepted proposal with positive prior density, and the acceptance rate is the number of accepted moves after burn-in over n_samples.", "quantifier": "every run", "why_tests_cant": "all accept/reject patterns", "anchors": ["abcpy/inferences.py:MCMCMetropoliHastings.sample"]}
{"id": "C53", "title": "The Metropolis-Hastings acceptance rule satisfies detailed balance", "statement": "With a symmetric proposal on the transformed space, target(x)*min(1,alpha(x,y)) = target(y)*min(1,alpha(y,x)) where target is prior times likelihood divided by the Jacobian of the transformation.", "quantifier": "every pair of points, prior, likelihood and bounds", "why_tests_cant": "continuum", "anchors": ["abcpy/inferences.py:MCMCMetropoliHastings.sample"]}
{"id": "C54", "title": "Restarting MCMC from a journal extends the chain consistently", "statement": "After any number of restarts the journal holds the concatenation of all chains, one weight per state, and the last acceptance rate is the overall acceptance rate.", "quantifier": "every sequence of restarts", "why_tests_cant": "unbounded histories", "anchors": ["abcpy/inferences.py:MCMCMetropoliHastings.sample"]}
{"id": "C55", "title": "Bounded-variable transformation is a bijection between the box and the whole space", "statement": "Transforming a point strictly inside the bounds and transforming back returns it, the inverse of any real vector is strictly inside the bounds, transforming that returns the vector, and a point on or outside a bound is refused.", "quantifier": "every number of variables, bounds pattern and point", "why_tests_cant": "continuum", "anchors": ["abcpy/transformers.py:BoundedVarTransformer"]}
{"id": "C56", "title": "The reported log Jacobian is the logarithm of the derivative", "statement": "jac_log_det(x) is the sum of the logarithms of the derivatives of the coordinate transformations at x, and jac_log_det_inverse_transform(t(x)) agrees with it.", "quantifier": "every point inside the bounds", "why_tests_cant": "continuum", "anchors": ["abcpy/transformers.py:BoundedVarTransformer._jac_log_det", "abcpy/transformers.py:BoundedVarTransformer._jac_log_det_inverse_transform"]}
{"id": "C57", "title": "Caching the observed statistics never changes a distance", "statement": "A distance object used for any sequence of calls returns for each call what a fresh object would return.", "quantifier": "every sequence of data sets, including ones changed in place by the caller", "why_tests_cant": "unbounded histories", "anchors": ["abcpy/distances.py:Distance._calculate_summary_stat", "abcpy/approx_lhd.py:Approx_likelihood._calculate_summary_stat"]}
{"id": "C58", "title": "A combined distance is a convex combination within its declared maximum", "statement": "For non-negative weights with positive sum the combined distance lies between the smallest and largest of the individual distances and does not exceed the declared maximum if each individual one does not; without weights it is the mean.", "quantifier": "every number of models, weights and distances", "why_tests_cant": "continuum", "anchors": ["abcpy/jointdistances.py:LinearCombination"]}
{"id": "C59", "title": "Euclidean distance between data sets is symmetric and non-negative", "statement": "The Euclidean data-set distance is non-negative, symmetric, bounded by dist_max, zero when all statistics coincide and positive when they never do.", "quantifier": "every pair of non-empty data sets of any size and dimension", "why_tests_cant": "continuum", "anchors": ["abcpy/distances.py:Euclidean.distance"]}
{"id": "C60", "title": "MMD and energy estimates are symmetric and non-negative where promised", "statement": "The biased MMD estimate is non-negative for every positive semi-definite kernel, both estimates are symmetric, the biased one vanishes for equal samples, and _estimate_always_positive is true only for estimators that are never negative.", "quantifier": "every sample, kernel and size", "why_tests_cant": "continuum", "anchors": ["abcpy/distances.py:MMD", "abcpy/distances.py:EnergyDistance", "abcpy/distances.py:SquaredHellingerDistance"]}
{"id": "C61", "title": "Combined log-likelihood and combined likelihood agree", "statement": "The sum combination of log-likelihoods is the logarithm of the product of the individual likelihoods, and the product combination is their product, for any number of models.", "quantifier": "every number of models and values", "why_tests_cant": "all lengths", "anchors": ["abcpy/jointapprox_lhd.py"]}
{"id": "C62", "title": "Polynomial expansion has the documented columns in the documented order", "statement": "Expanding d statistics to degree k with or without cross products gives k*d (+ d(d-1)/2) columns: powers 1..k of each statistic, then the products of all pairs i<j; each data row is expanded independently.", "quantifier": "every number of rows, d and degree", "why_tests_cant": "all sizes", "anchors": ["abcpy/statistics.py:Statistics._polynomial_expansion"]}
{"id": "C63", "title": "Cross-validation groups are balanced and cover every sample", "statement": "The fold labels used by the penalised logistic regression distance assign each sample of the two data sets to exactly one of the ten folds, and fold sizes differ by at most one per data set.", "quantifier": "every sample size", "why_tests_cant": "all sizes", "anchors": ["abcpy/distances.py:PenLogReg", "abcpy/approx_lhd.py:PenLogReg"]}
{"id": "C64", "title": "Memoisation is transparent", "statement": "cached(f) returns f(x) for every sequence of arguments and evaluates f at most once per argument.", "quantifier": "every deterministic f and every call sequence", "why_tests_cant": "unbounded histories", "anchors": ["abcpy/utils.py:cached"]}
{"id": "C65", "title": "Statistics learning keeps parameters and simulations aligned and splits them without overlap", "statement": "Row i of the parameters belongs to row i of the statistics in the training and in the validation set; together they contain every generated sample exactly once; the training set has n_samples*n_samples_per_param rows.", "quantifier": "all sizes and all combinations of provided and generated sets", "why_tests_cant": "all sizes", "anchors": ["abcpy/statisticslearning.py:StatisticsLearning.__init__"]}
{"id": "C66", "title": "Triplets for distance learning are well formed", "statement": "Whenever a triplet is produced, the positive sample is similar to the anchor and different from it, and the negative one is dissimilar; the similarity relation is symmetric.", "quantifier": "every similarity matrix and random stream", "why_tests_cant": "all matrices and draws", "anchors": ["abcpy/NN_utilities/datasets.py:TripletSimilarities", "abcpy/NN_utilities/utilities.py:compute_similarity_matrix"]}
{"id": "C67", "title": "Early stopping restores the best earlier network", "statement": "When training stops early the returned network has the weights it had at the previous validation check.", "quantifier": "every sequence of losses and weight updates", "why_tests_cant": "all training histories", "anchors": ["abcpy/NN_utilities/trainer.py:fit"]}
{"id": "C68", "title": "A training call is not influenced by earlier ones", "statement": "The data-loader options used by a training call depend only on that call's arguments.", "quantifier": "every sequence of training calls", "why_tests_cant": "unbounded histories", "anchors": ["abcpy/NN_utilities/algorithms.py"]}
{"id": "C69", "title": "Weighted Wasserstein distance normalises and validates its weights", "statement": "wass_dist uses weights that sum to one for each sample, uniform when none are given, and refuses weights of the wrong length.", "quantifier": "every sample size and weights", "why_tests_cant": "all sizes", "anchors": ["abcpy/utils.py:wass_dist"]}
{"id": "C70", "title": "Model selection uses the model that generated each reference simulation", "statement": "Each row of the random forest reference table is labelled with the index of the model that produced its simulation, and both selection and probability use a table of the requested size.", "quantifier": "every number of models and sequence of calls", "why_tests_cant": "unbounded histories", "anchors": ["abcpy/modelselections.py:RandomForest"]}
{"id": "C71", "title": "Generating from a journal pairs each parameter with its own simulations and weight", "statement": "GenerateFromJournal.generate returns n rows where simulation i was run at parameter i and weight i is the normalised weight of parameter i; a journal of a different model type is refused.", "quantifier": "every journal, iteration and schedule", "why_tests_cant": "all sizes and schedules", "anchors": ["abcpy/output.py:GenerateFromJournal"]}
{"id": "C72", "title": "The simulator is run at the parameters that were set", "statement": "After set_parameters(p) succeeds, simulate runs every simulator with input values computed from p: the entries of p for inputs that are parameters, constants for constants, and the arithmetic of entries of p for inputs that are arithmetic expressions.", "quantifier": "every graph, every accepted vector, every earlier history of stored values", "why_tests_cant": "all graphs and histories", "anchors": ["abcpy/graphtools.py:GraphTools.simulate", "abcpy/graphtools.py:GraphTools.set_parameters"]}
{"id": "C73", "title": "Uniform prior: density, support and normalisation agree", "statement": "For Uniform with lower bounds below upper bounds, in any dimension, the density is positive exactly at the points accepted as values of the model, and it integrates to one.", "quantifier": "every dimension, all bounds, all points", "why_tests_cant": "all dimensions and reals", "anchors": ["abcpy/continuousmodels.py:Uniform.pdf", "abcpy/continuousmodels.py:Uniform._check_output"]}
{"id": "C74", "title": "Evaluating the prior density does not change the parameter vector", "statement": "After the prior density of a parameter vector has been computed, the caller's vector holds the same values as before.", "quantifier": "every graph, every vector", "why_tests_cant": "all priors and vectors", "anchors": ["abcpy/graphtools.py:GraphTools.pdf_of_prior", "abcpy/continuousmodels.py:StudentT.pdf"]}
{"id": "C75", "title": "A simulation budget is spent exactly", "statement": "With a simulation budget b, RejectionABC runs exactly b simulations, for every distance.", "quantifier": "every budget, model and distance", "why_tests_cant": "all budgets and distances", "anchors": ["abcpy/inferences.py:RejectionABC.sample", "abcpy/inferences.py:RejectionABC._sample_parameter"]}
{"id": "C76", "title": "Any positive number of samples can be requested from rejection sampling", "statement": "RejectionABC returns n particles for every n >= 1, provided every particle is eventually accepted.", "quantifier": "every n >= 1", "why_tests_cant": "a test uses a few values of n", "anchors": ["abcpy/inferences.py:RejectionABC._sample_n_samples_epsilon"]}
{"id": "C77", "title": "Each call of sample is a fresh run", "statement": "Calling sample() again on the same sampler, without a journal file, starts from the prior: the result depends on the arguments and random numbers only, not on earlier calls.", "quantifier": "every sampler state left by earlier calls", "why_tests_cant": "histories of calls are unbounded; tests make one call per object", "anchors": ["abcpy/inferences.py:PMCABC.sample", "abcpy/acceptedparametersmanager.py:AcceptedParametersManager.update_broadcast"]}
{"id": "C78", "title": "Standard MCMC kernel of SMCABC satisfies detailed balance", "statement": "For the acceptance probability used by the standard MCMC kernel, the flow from (theta, y) to (theta', y') under prior density times number of simulations below the threshold equals the flow back.", "quantifier": "every prior, kernel, threshold, pair of parameters and simulations", "why_tests_cant": "needs a real-valued identity for all densities", "anchors": ["abcpy/inferences.py:SMCABC._accept_parameter"]}
{"id": "C79", "title": "SABC: the recorded distances belong to the recorded particles", "statement": "In every population of the journal and at the end of the run, the distance recorded with a particle is the distance of a data set simulated from that particle's value, also after two moves that hit the same particle and after resampling; its redefined distance is computed from that distance.", "quantifier": "every run, acceptance pattern and resampling draw", "why_tests_cant": "all patterns of moves and resampling", "anchors": ["abcpy/inferences.py:SABC.sample", "abcpy/inferences.py:SABC._accept_parameter"]}
{"id": "C80", "title": "BoundedVarScaler is a bijection and scales its training data into the feature range", "statement": "For a scaler that rescales and for one that does not, transforming a row strictly inside the bounds and transforming back returns it, every row of numbers is the transform of a row strictly inside, rows on or outside a bound are refused, and after fit every entry of every training row is mapped into the feature range.", "quantifier": "every table of training rows, bounds, feature range and row", "why_tests_cant": "all tables and rows", "anchors": ["abcpy/transformers.py:BoundedVarScaler"]}
{"id": "C81", "title": "MCMC bounds apply to the parameter they are given for", "statement": "Bounds given by parameter name are used for the parameter of that name and for no other; unknown names raise KeyError; an upper bound without a lower one is refused.", "quantifier": "every list of parameter names and every bounds dictionary", "why_tests_cant": "all orders of names and keys", "anchors": ["abcpy/inferences.py:MCMCMetropoliHastings.sample"]}
{"id": "C82", "title": "Distances do not depend on the order of observations or on units", "statement": "Permuting the observations of either data set leaves every distance unchanged; the nearest-neighbour estimators use the k-th smallest distance and are unchanged when all statistics are shifted and scaled by the same positive unit, while the Euclidean distance scales with the unit.", "quantifier": "every pair of data sets, permutation, shift, positive unit and number of neighbours", "why_tests_cant": "continuum and all permutations", "anchors": ["abcpy/distances.py:Euclidean", "abcpy/distances.py:MMD", "abcpy/distances.py:KLDivergence", "abcpy/distances.py:GammaDivergence", "abcpy/distances.py:SquaredHellingerDistance"]}
{"id": "C83", "title": "No distance exceeds its declared maximum", "statement": "A distance object with a finite dist_max() never returns a larger number, whatever the data and whatever the score of the classifier (a number in [0,1]).", "quantifier": "every pair of data sets and every classifier score", "why_tests_cant": "continuum", "anchors": ["abcpy/distances.py:SquaredHellingerDistance.dist_max", "abcpy/distances.py:PenLogReg", "abcpy/distances.py:LogReg"]}
{"id": "C84", "title": "Statistics are computed observation by observation", "statement": "For any chain of statistics objects, the result has one row per observation and row i is what the chain returns for observation i alone; data sets with observations of different sizes are refused; an object made with reference simulations gives them unit standard deviation in every column.", "quantifier": "every chain, data set and reference data set", "why_tests_cant": "unbounded data sets and chains", "anchors": ["abcpy/statistics.py:Identity.statistics", "abcpy/statistics.py:LinearTransformation.statistics", "abcpy/statistics.py:Statistics.__init__", "abcpy/statistics.py:Statistics._rescale"]}
{"id": "C85", "title": "Reference data of the logistic-regression likelihood come from the prior predictive", "statement": "The reference table of the penalised logistic regression likelihood has the requested number of rows, and each row is simulated at its own draw from the prior.", "quantifier": "every model, prior and number of reference simulations", "why_tests_cant": "the table depends on the history of the random state", "anchors": ["abcpy/approx_lhd.py:PenLogReg._simulate_ref_data"]}
{"id": "C86", "title": "The log-likelihood of several observations is the sum over the single ones", "statement": "Each approximate log-likelihood, for fixed simulated data, evaluated on a list of observations is the sum of its values on the lists holding a single observation, so it does not depend on the order of the observations and combining two lists adds their values.", "quantifier": "every list of observations and every set of simulated data on which the likelihood is defined", "why_tests_cant": "all numbers of observations and all data; a test compares a few numbers", "anchors": ["abcpy/approx_lhd.py:SynLikelihood.loglikelihood", "abcpy/approx_lhd.py:SemiParametricSynLikelihood.loglikelihood", "abcpy/approx_lhd.py:PenLogReg.loglikelihood"]}
{"id": "C87", "title": "The Wasserstein distance is a metric on weighted samples and convergence lists have one entry per pair", "statement": "The Wasserstein distance of two weighted samples is non-negative, symmetric, satisfies the triangle inequality and is zero exactly when the two weighted samples put the same share of weight on every point; the sliced version along fixed directions is non-negative, symmetric, satisfies the triangle inequality and is at most the Wasserstein distance; the convergence list of a journal holds the distance of every pair of consecutive iterations in order.", "quantifier": "every pair and triple of non-empty weighted samples of one dimension, every list of directions and every journal", "why_tests_cant": "metric laws range over all samples", "anchors": ["abcpy/distances.py:Wasserstein", "abcpy/distances.py:SlicedWasserstein", "abcpy/utils.py:wass_dist", "abcpy/output.py:Journal.Wass_convergence_plot"]}
{"id": "C88", "title": "Semiautomatic statistics are least-squares predictors of the parameters", "statement": "The statistics learned by the semiautomatic method have one component per parameter; each component is a linear function of the statistics it is learned from and, up to an intercept, predicts its parameter on the training set with the least squared error.", "quantifier": "every training set, every previous statistics and every data set they accept", "why_tests_cant": "all training sets; a test compares a few numbers with stored ones", "anchors": ["abcpy/statisticslearning.py:Semiautomatic", "abcpy/statistics.py:LinearTransformation"]}
{"id": "C89", "title": "An accepted similarity matrix allows triplets to be formed", "statement": "When the similarity of a set of parameters is computed without an error, some two different samples are similar, so that triplets can be formed.", "quantifier": "every set of parameters and every quantile", "why_tests_cant": "holds for generic parameters; fails only for special sets, such as repeated parameters", "anchors": ["abcpy/NN_utilities/utilities.py:compute_similarity_matrix", "abcpy/NN_utilities/datasets.py:TripletSimilarities"]}
{"id": "C90", "title": "The synthetic likelihood is a normal likelihood", "statement": "The synthetic likelihood of the observations is the product of their densities under the normal distribution with the mean of the simulated statistics and the estimated covariance, times a factor depending only on the numbers of observations and statistics.", "quantifier": "all observations and simulations, all dimensions, every covariance estimate that can be inverted", "why_tests_cant": "all data and dimensions; a test compares a few numbers", "anchors": ["abcpy/approx_lhd.py:SynLikelihood.loglikelihood"]}
{"id": "C91", "title": "The rank correlation of the semiparametric likelihood is a correlation matrix", "statement": "The matrix of rank correlations used by the semiparametric likelihood is symmetric, positive semidefinite, has ones on the diagonal and entries between -1 and 1; it does not depend on the order of the simulations, on strictly increasing transformations of the statistics, or on earlier calls.", "quantifier": "every set of simulated statistics and every history of calls", "why_tests_cant": "all data and histories", "anchors": ["abcpy/approx_lhd.py:SemiParametricSynLikelihood._estimate_gaussian_correlation"]}
{"id": "C92", "title": "SMCABC runs follow the published algorithm", "statement": "In every run that returns, the populations, thresholds, weights, journal content and number of simulations are those of the algorithm: prior draws first, then in each step a threshold chosen so that the fraction alpha of the effective sample size is left, weights multiplied by the fraction of simulations still below it, resampling when the effective sample size is small, and one move of the chosen MCMC kernel for each particle with positive weight, where a move proposes, simulates, and accepts with the Metropolis-Hastings probability of that kernel.", "quantifier": "every model, distance, kernel, number of particles and steps, both versions and all three MCMC kernels, every random source", "why_tests_cant": "each part of the algorithm matters for correctness but changes the output only in distribution; tests see one random run", "anchors": ["abcpy/inferences.py:SMCABC.sample", "abcpy/inferences.py:SMCABC._accept_parameter", "abcpy/inferences.py:SMCABC._accept_parameter_r_hit_kernel", "abcpy/inferences.py:SMCABC._accept_parameter_r_hit_kernel_version_2"]}
{"id": "C93", "title": "The r-hit kernels work for every positive r", "statement": "For every positive integer given as r_hit_value, a move of the r-hit kernels whose loops end returns a particle, without an exception, and can move the particle.", "quantifier": "all positive r and all models", "why_tests_cant": "r is free; tests use the default", "anchors": ["abcpy/inferences.py:SMCABC._accept_parameter_r_hit_kernel", "abcpy/inferences.py:SMCABC._accept_parameter_r_hit_kernel_version_2"]}
{"id": "C94", "title": "The r-hit kernels satisfy detailed balance", "statement": "With the numbers of simulations that the loops need, distributed as they are for independent simulations, the moves of both r-hit kernels satisfy detailed balance with respect to prior times likelihood restricted to distances below the threshold.", "quantifier": "all r at least 2, all pairs of states, all numbers of simulations, all probabilities of a hit", "why_tests_cant": "a statement about probabilities of all pairs of states and of unboundedly many simulations", "anchors": ["abcpy/inferences.py:SMCABC._accept_parameter_r_hit_kernel", "abcpy/inferences.py:SMCABC._accept_parameter_r_hit_kernel_version_2"]}
{"id": "C95", "title": "Drawing refused proposals again does not bias the moves of SMCABC", "statement": "When proposals outside the support of the prior are drawn again, the moves still leave prior times approximate likelihood invariant.", "quantifier": "all models, proposal laws and pairs of states", "why_tests_cant": "a statement about the limit law of an unbounded loop", "anchors": ["abcpy/inferences.py:SMCABC._accept_parameter"]}
{"id": "C96", "title": "The next threshold of SMCABC keeps the fraction alpha", "statement": "The next threshold is the point where the effective sample size falls to the fraction alpha of its value; if it does not fall so far before epsilon_final, the next threshold is epsilon_final.", "quantifier": "all populations, weights, thresholds and alpha", "why_tests_cant": "all populations and all real thresholds; the rule is stated by a zero of a step function", "anchors": ["abcpy/inferences.py:SMCABC.sample", "abcpy/inferences.py:SMCABC._bisection"]}
{"id": "C97", "title": "Importance weights use the density that particles are drawn from", "statement": "The weight of a particle of PMCABC times the density with which it is drawn, including that refused proposals are drawn again, is the prior density up to a factor that is the same for all particles.", "quantifier": "all populations, kernels and priors", "why_tests_cant": "a statement about the limit law of an unbounded loop", "anchors": ["abcpy/inferences.py:PMCABC._resample_parameter", "abcpy/inferences.py:PMCABC._calculate_weight"]}
{"id": "C98", "title": "RSMCABC runs follow the algorithm", "statement": "In every run that returns, populations, thresholds, numbers of attempts, journal content and number of simulations are those of the algorithm: prior draws below the first threshold first; in each step the particles with the largest distances are dropped, the largest kept distance becomes the threshold, and each dropped particle is replaced by a kept one that made the current number of attempts, each accepted with the Metropolis-Hastings probability if the distance is below the threshold; the next number of attempts follows from the fraction accepted. Only that an accepted proposal is not taken over (C47) is left out.", "quantifier": "every model, distance, kernel, number of particles and steps, alpha and const in (0,1], every random source", "why_tests_cant": "each part of the algorithm matters for correctness but changes the output only in distribution; the runs are unbounded", "anchors": ["abcpy/inferences.py:RSMCABC.sample", "abcpy/inferences.py:RSMCABC._accept_parameter"]}
{"id": "C99", "title": "RSMCABC makes enough attempts to move each particle", "statement": "The number of attempts per particle in the next step is large enough that, at the fraction accepted in this step, a particle stays where it is with probability at most const.", "quantifier": "all fractions accepted strictly between 0 and 1, all const", "why_tests_cant": "the number of attempts is a rounded logarithm of a fraction that a test cannot range over", "anchors": ["abcpy/inferences.py:RSMCABC.sample"]}
{"id": "C100", "title": "APMCABC runs follow the algorithm", "statement": "In every run that returns, populations, thresholds, weights and journal content are those of the algorithm: weighted prior draws first; then in each step n minus round(n alpha) proposals from the kept population with importance weights, joined to the kept particles, the alpha quantile of the distances as threshold, the particles below it kept, and the run stopped as soon as the fraction of new particles below the old threshold is at most the cutoff.", "quantifier": "every model, distance, kernel, number of particles and steps, alpha and cutoff, every random source", "why_tests_cant": "each part of the algorithm matters for correctness but changes the output only in distribution; the runs are unbounded", "anchors": ["abcpy/inferences.py:APMCABC.sample", "abcpy/inferences.py:APMCABC._accept_parameter"]}
{"id": "C101", "title": "APMCABC weights of old and new particles are on one scale", "statement": "In each returned population, the weight of every particle is the prior density divided by the density with which it was proposed, up to one factor that is common to the particles carried over and the new ones.", "quantifier": "all populations, kernels and priors", "why_tests_cant": "a statement about the weights of all runs; a wrong scale changes results only in distribution", "anchors": ["abcpy/inferences.py:APMCABC.sample", "abcpy/inferences.py:APMCABC._accept_parameter"]}
{"id": "C102", "title": "SABC runs follow the simulated annealing algorithm", "statement": "A run of SABC draws from the prior until distances are below the initial threshold, moves particles by the Metropolis rule with prior ratio and exp of the redefined distance difference over the threshold, replaces moved particles, resamples and anneals on schedule, and journals the populations, exactly as the algorithm says.", "quantifier": "all models, distances, worker histories, sample sizes and schedules", "why_tests_cant": "a statement about every run; a wrong sign, order or boundary changes results only in distribution", "anchors": ["abcpy/inferences.py:SABC.sample", "abcpy/inferences.py:SABC._accept_parameter", "abcpy/inferences.py:SABC._smoother_distance"]}
{"id": "C103", "title": "SABC moves satisfy detailed balance for every kernel", "statement": "At a fixed threshold, the moves of SABC leave the density prior times exp(-redefined distance / threshold) in detailed balance, whatever perturbation kernel the user supplies.", "quantifier": "all kernels, priors, thresholds and pairs of states", "why_tests_cant": "a statement about densities", "anchors": ["abcpy/inferences.py:SABC._accept_parameter"]}
{"id": "C104", "title": "ABCsubsim runs are the runs of its chain algorithm", "statement": "In a run of ABCsubsim the first population is drawn from the prior; in every later step each of the n_samples/chain_length closest particles is simulated again and starts a chain of Metropolis moves at the last annealing parameter; the results are sorted; annealing parameter, covariance matrices, simulation count, stopping and journal are computed as specified.", "quantifier": "all models, distances, kernels, worker histories, sample sizes and chain lengths", "why_tests_cant": "a statement about every run; a wrong boundary or factor changes results only in distribution", "anchors": ["abcpy/inferences.py:ABCsubsim.sample", "abcpy/inferences.py:ABCsubsim._accept_parameter", "abcpy/inferences.py:ABCsubsim._update_cov_mat"]}
{"id": "C105", "title": "ABCsubsim chains are in detailed balance", "statement": "The moves of a chain of ABCsubsim are in detailed balance with respect to the prior restricted to distances below the annealing parameter.", "quantifier": "all priors, kernels and pairs of states", "why_tests_cant": "a statement about densities of proposals", "anchors": ["abcpy/inferences.py:ABCsubsim._accept_parameter", "abcpy/perturbationkernel.py:MultivariateNormalKernel.update"]}
{"id": "C106", "title": "ABCsubsim journals one covariance matrix per kernel", "statement": "Every population in the journal of ABCsubsim comes with exactly one covariance matrix for each perturbation kernel.", "quantifier": "all runs and all steps", "why_tests_cant": "all lengths of runs", "anchors": ["abcpy/inferences.py:ABCsubsim.sample"]}
{"id": "C107", "title": "ABCsubsim adopts covariance scales with acceptable rates", "statement": "When ABCsubsim changes the scale of its covariance matrices, proposals with the new matrices are accepted at a rate between 30 and 50 per cent in the test chain, for every chain length.", "quantifier": "all chain lengths, kernels and worker histories", "why_tests_cant": "the test chain is random", "anchors": ["abcpy/inferences.py:ABCsubsim._update_cov_mat"]}
{"id": "C108", "title": "ABCsubsim particles respect the annealing parameter", "statement": "After the first step, every particle of a population of ABCsubsim has a distance below the annealing parameter of the step before, and annealing parameters do not increase.", "quantifier": "all runs and steps", "why_tests_cant": "simulations are random", "anchors": ["abcpy/inferences.py:ABCsubsim._accept_parameter", "abcpy/inferences.py:ABCsubsim.sample"]}
{"id": "C109", "title": "The ABCsubsim annealing parameter separates the particles that go on", "statement": "The particles with distances below the annealing parameter are exactly those that start the chains of the next step, for every chain length including one.", "quantifier": "all runs, sample sizes and chain lengths", "why_tests_cant": "boundaries for all sizes", "anchors": ["abcpy/inferences.py:ABCsubsim.sample"]}
{"id": "C110", "title": "A run of PMCABC follows the algorithm", "statement": "Each call of PMCABC.sample carries out population Monte Carlo ABC: the first population by drawing from the prior until the simulation is within the first threshold, every later one by choosing a particle by its weight, perturbing it within the support of the prior and simulating until within the threshold, which is the percentile of the last distances or the given value if that is larger; weights are prior density over the kernel mixture, normalised; the simulation counter is the number of attempts.", "quantifier": "every model, kernel, distance, number of steps and samples, threshold list, percentile, worker random state and every run that returns", "why_tests_cant": "A test sees a few runs with loose statistical tolerances and cannot tell whether every step of every run used the right population, threshold or weights", "anchors": ["abcpy/inferences.py:PMCABC.sample", "abcpy/inferences.py:PMCABC._resample_parameter", "abcpy/inferences.py:PMCABC._calculate_weight"]}
{"id": "C111", "title": "Restarting PMCABC from a journal continues the run", "statement": "A call with a journal file carries on the run that wrote the journal: the populations follow those of the earlier calls as if one call had made all the steps, any number of times; with full output the journal then holds the populations of all calls in order.", "quantifier": "every sequence of a first call and restarts, every number of steps, thresholds and full_output settings", "why_tests_cant": "Tests restart once on one toy model and only check that the call returns", "anchors": ["abcpy/inferences.py:PMCABC.sample", "abcpy/output.py:Journal.fromFile"]}
{"id": "C112", "title": "number_of_simulations counts all simulations behind the journal", "statement": "After a call or a restart of PMCABC the last entry of number_of_simulations is the number of simulations made by all the calls that contributed to the journal.", "quantifier": "every first call and restart, by the same or by another sampler object", "why_tests_cant": "A test of one call cannot see what a restart in a new process records", "anchors": ["abcpy/inferences.py:PMCABC.sample", "abcpy/output.py:Journal"]}
{"id": "C113", "title": "The journal lists the thresholds that were used", "statement": "configuration[\"epsilon_arr\"] in the journal of PMCABC lists the threshold of every population, one entry per step, also after restarts.", "quantifier": "every number of steps in the first call and in restarts", "why_tests_cant": "Only a restart with several steps shows extra entries; the value is never compared in tests", "anchors": ["abcpy/inferences.py:PMCABC.sample"]}
{"id": "C114", "title": "A process that dies loses at most the step in progress", "statement": "If a process running PMCABC.sample with path_to_save_journal dies at any time, the file holds a readable journal with all completed populations, from which a restart continues.", "quantifier": "every crash point of every call, with and without full output", "why_tests_cant": "Crash points between opening and writing the file, and between steps, cannot be enumerated by tests", "anchors": ["abcpy/inferences.py:PMCABC.sample", "abcpy/output.py:Journal.save"]}
{"id": "C115", "title": "A run of PMC follows the algorithm", "statement": "A call of the likelihood-based PMC sampler without a journal and without initial points draws the wanted number of particles from the prior, and then in every iteration resamples and perturbs particles (again while the prior density of the proposal is zero), estimates the likelihood of every proposal from freshly simulated data, and gives it the weight likelihood times prior density divided by the density of the proposal mixture, normalised; the returned journal holds the populations of all iterations with full output and the last one otherwise, and the number of simulations counts every data set.", "quantifier": "every environment (models, kernels, likelihood, generator), number of particles, iterations and all draws", "why_tests_cant": "A run depends on a random history of any length; a test sees one seed and cannot tell a wrong weight from noise", "anchors": ["abcpy/inferences.py:PMC.sample", "abcpy/inferences.py:PMC._resample_parameter", "abcpy/inferences.py:PMC._approx_log_lik_calc", "abcpy/inferences.py:PMC._calculate_weight"]}
{"id": "C116", "title": "Restarting PMC continues the run", "statement": "A call of PMC with a journal file of an earlier call makes its iterations from the last population and weights of that call on, as if the two calls were one; with full output in both calls the returned journal has the populations of both in order.", "quantifier": "every environment, numbers of iterations of both calls, both kinds of output and all draws", "why_tests_cant": "The claim is about every pair of calls and every draw; tests compare one restarted run", "anchors": ["abcpy/inferences.py:PMC.sample", "abcpy/output.py:Journal.fromFile"]}
{"id": "C117", "title": "PMC starts from given initial points", "statement": "If initial points are given to PMC, its first iteration resamples among these points with equal weights.", "quantifier": "every array of initial points", "why_tests_cant": "The documentation promises it for every array; no test passes initial points", "anchors": ["abcpy/inferences.py:PMC.sample"]}
{"id": "C118", "title": "Restarting SMCABC continues the run", "statement": "A call of SMCABC with m steps (full output, simulations stored) followed by a restart from its journal with n steps gives the same thresholds, populations, weights, distances and journal as one call with m + n steps and the same draws; the simulations of the two calls add up; a restart from a journal without stored simulations or without a population raises.", "quantifier": "every environment, configuration, m, n and all draws", "why_tests_cant": "It is an equality of two runs of any length, including those that stop at the final threshold", "anchors": ["abcpy/inferences.py:SMCABC.sample", "abcpy/output.py:Journal.get_accepted_simulations"]}
{"id": "C119", "title": "Every sampler can be restarted from a journal that it wrote", "statement": "For every sampler that takes a journal file (PMCABC, PMC, SMCABC, RSMCABC, APMCABC, SABC, ABCsubsim, MCMC): a call on a new sampler object with the journal of an earlier call does not raise, starts from the last population in the journal and does not go back to a larger threshold.", "quantifier": "every journal that a call leaves, every configuration of the second call and all draws", "why_tests_cant": "Restarts are tested for some samplers and single seeds only; the claim is about every journal", "anchors": ["abcpy/inferences.py:RSMCABC.sample", "abcpy/inferences.py:APMCABC.sample", "abcpy/inferences.py:SABC.sample", "abcpy/inferences.py:ABCsubsim.sample", "abcpy/inferences.py:RSMCABC._accept_parameter", "abcpy/inferences.py:SABC._accept_parameter"]}
{"id": "C120", "title": "The journal on disk is the journal returned", "statement": "When a call with a path for the journal returns, the file at that path holds the populations of the returned journal.", "quantifier": "every configuration, number of steps and all draws, including runs that stop early", "why_tests_cant": "Early stops depend on random acceptance rates; the file is not compared with the returned journal in any test", "anchors": ["abcpy/inferences.py:APMCABC.sample", "abcpy/inferences.py:PMCABC.sample", "abcpy/output.py:Journal.save"]}
{"id": "C121", "title": "Covariance matrices describe the weighted particles", "statement": "The covariance matrix that a perturbation kernel proposes with, and the one that `posterior_cov` reports, is symmetric and positive semidefinite and gives to every linear combination of the parameters its weighted variance (with the reliability-weight correction); the stabilised matrix used by a kernel is positive definite exactly if two particles with positive weight differ.", "quantifier": "every population, every weights, every number and sizes of parameters", "why_tests_cant": "Definiteness must hold for every population and every direction; a test sees a few matrices", "anchors": ["abcpy/perturbationkernel.py:MultivariateNormalKernel.calculate_cov", "abcpy/perturbationkernel.py:MultivariateStudentTKernel.calculate_cov", "abcpy/inferences.py:PMCABC", "abcpy/output.py:Journal.posterior_cov"]}
{"id": "C122", "title": "The network kernel walks along edges", "statement": "A `NetworkRandomWalkKernel` moves every discrete parameter to a neighbour in the network with probability proportional to the weight of the edge, and its `pmf` is the probability of that move.", "quantifier": "every network, weight function, and tuple of current and proposed values", "why_tests_cant": "The probabilities are a law over all networks and neighbours; a seeded test sees one move", "anchors": ["abcpy/perturbationkernel.py:NetworkRandomWalkKernel.update", "abcpy/perturbationkernel.py:NetworkRandomWalkKernel.pmf"]}
{"id": "C123", "title": "Results with a seed do not depend on backend and schedule", "statement": "With the same seeds, what the tasks of an inference return does not depend on the number of processes, on which process runs which task and when, on the backend, or on what the model graph was used for before.", "quantifier": "every graph, number of tasks and processes, schedule, history of the graph, seed and simulator", "why_tests_cant": "Schedules vary from run to run and cannot be enumerated; tests use the sequential backend", "anchors": ["abcpy/backends/mpi.py:BackendMPIWorker", "abcpy/backends/base.py:BackendDummy", "abcpy/inferences.py:RejectionABC", "abcpy/graphtools.py:sample_from_prior", "abcpy/distances.py:SlicedWasserstein", "abcpy/distances.py:LogReg"]}
{"id": "C124", "title": "The particles of a run are separate draws", "statement": "No two tasks of a map of RejectionABC (or of another sampler) use the same random numbers, so that particles are not copies of each other.", "quantifier": "every number of particles, all arrays of seeds, schedules, simulators", "why_tests_cant": "Copies appear with a probability that no single seeded run shows", "anchors": ["abcpy/inferences.py:RejectionABC._sample_n_samples_epsilon", "abcpy/inferences.py:RejectionABC._sample_parameter"]}
{"id": "C125", "title": "Accepted particles follow the prior conditioned on acceptance", "statement": "If the trials of a task are independent, the task ends with probability one and the parameters that it returns follow the prior law conditioned on the event that the distance is at most the threshold; the reported number of simulations is geometric.", "quantifier": "every finite law of prior and simulator with positive acceptance probability, every threshold", "why_tests_cant": "It is a statement about probabilities of unbounded numbers of trials", "anchors": ["abcpy/inferences.py:RejectionABC._sample_parameter"]}
{"id": "C126", "title": "Forward derivatives are the derivatives", "statement": "A network made by `createDefaultNNWithDerivatives` returns, with its outputs, the first partial derivatives and the second (unmixed, or all) partial derivatives of each output with respect to each input of the same sample.", "quantifier": "every number and sizes of layers, all weights, inputs, batches and twice differentiable nonlinearities", "why_tests_cant": "Derivatives are limits; a test compares a few numbers up to a tolerance", "anchors": ["abcpy/NN_utilities/networks.py:createDefaultNNWithDerivatives"]}
{"id": "C127", "title": "The Fisher loss is the score-matching objective", "statement": "The loss of a batch is the mean over the samples of half the squared norm of the gradient of the log-density plus its Laplacian (plus the penalty), for the exponential family with the network as statistics.", "quantifier": "every network, batch, natural parameters and penalty", "why_tests_cant": "The objective involves derivatives of an arbitrary function", "anchors": ["abcpy/NN_utilities/losses.py:Fisher_divergence_loss", "abcpy/NN_utilities/losses.py:Fisher_divergence_loss_with_c_x", "abcpy/statisticslearning.py:ExponentialFamilyScoreMatching._batch_Fisher_div_with_c_x"]}
{"id": "C128", "title": "The sliced loss is unbiased", "statement": "The mean of the sliced loss over the noise is the score-matching objective for every type of noise that is offered (signs, normal numbers, points of the sphere), with and without variance reduction; noise on the sphere with variance reduction and unknown types are refused.", "quantifier": "every network, batch, and natural parameters; the mean is over all sign vectors, and over arrays of independent standard normal numbers", "why_tests_cant": "A mean over random noise is not seen in single runs", "anchors": ["abcpy/statisticslearning.py:ExponentialFamilyScoreMatching._single_sliced_score_matching"]}
{"id": "C129", "title": "An epoch uses every sample once and records the mean loss", "statement": "In each epoch of training every sample is in exactly one batch, the batches have the wanted size except for the last, and the loss that is recorded is the mean of the losses of the batches.", "quantifier": "every data set, batch size, permutation and update rule", "why_tests_cant": "Sizes and permutations are unbounded; recorded losses are not compared with the batches in tests", "anchors": ["abcpy/statisticslearning.py:ExponentialFamilyScoreMatching._train"]}
{"id": "C130", "title": "Continuous distributions: the density function is the density of the sampler", "statement": "For Normal, StudentT, LogNormal and Exponential and every input their check accepts, pdf is nonnegative, integrates to one, and the integral of pdf over any event is the probability that forward_simulate returns a value in that event. The parameters have the documented meaning.", "quantifier": "all accepted parameter values (real), all measurable events", "why_tests_cant": "Unit tests compare a few values of pdf or moments of a finite sample; equality of the law of the sampler with the density over all events and parameters is a statement about integrals.", "anchors": ["abcpy/continuousmodels.py:Normal", "abcpy/continuousmodels.py:StudentT", "abcpy/continuousmodels.py:LogNormal", "abcpy/continuousmodels.py:Exponential"]}
{"id": "C131", "title": "Poisson: sampler and mass function have the given rate", "statement": "For every accepted rate, Poisson.forward_simulate draws from, and Poisson.pmf is, the Poisson law with mean equal to the rate.", "quantifier": "all nonnegative rates, all counts", "why_tests_cant": "A test with an integer rate passes; the claim fails for every other rate, and the law has infinitely many values.", "anchors": ["abcpy/discretemodels.py:Poisson"]}
{"id": "C132", "title": "Multivariate distributions accept exactly symmetric positive definite matrices", "statement": "MultivariateNormal and MultiStudentT accept an input iff it has the right number of values, the covariance matrix is symmetric and positive definite, and (MultiStudentT) the degrees of freedom are positive.", "quantifier": "all dimensions, all real matrices", "why_tests_cant": "A finite list of matrices cannot show that every accepted matrix is symmetric and positive definite.", "anchors": ["abcpy/continuousmodels.py:MultivariateNormal._check_input", "abcpy/continuousmodels.py:MultiStudentT._check_input"]}
{"id": "C133", "title": "Multivariate distributions: the density function is the density of the sampler", "statement": "For MultivariateNormal and MultiStudentT and every accepted input, pdf is nonnegative, integrates to one, and its integral over any event is the probability that forward_simulate returns a point of that event.", "quantifier": "all dimensions, all accepted means, matrices and degrees of freedom, all measurable events, all singular value decompositions the sampler may use", "why_tests_cant": "Needs the law of the sampler over all events in every dimension; samples only give approximate moments.", "anchors": ["abcpy/continuousmodels.py:MultivariateNormal", "abcpy/continuousmodels.py:MultiStudentT"]}
{"id": "C134", "title": "The nearest-neighbour divergence estimates are plug-in estimates", "statement": "For two data sets in which all nearest-neighbour distances are positive, the Kullback-Leibler estimate is the average over the first data set of the logarithm of the ratio of the k-nearest-neighbour density estimates of the two data sets; the gamma-divergence is the gamma-divergence with these density estimates plugged in and expectations replaced by averages; the squared Hellinger estimate is the average of the two one-sided plug-in estimates.", "quantifier": "all data sets, numbers of neighbours, dimensions and exponents", "why_tests_cant": "The formulas drop constants (volume of the unit ball, k) and combine powers, sizes and indices; a wrong size or exponent changes the value by a little that a test with one reference value computed by the same formula does not notice.", "anchors": ["abcpy/distances.py:KLDivergence.distance", "abcpy/distances.py:GammaDivergence.distance", "abcpy/distances.py:SquaredHellingerDistance.distance", "abcpy/distances.py:GammaDivergence.skl_estimator_gamma_q", "abcpy/distances.py:KLDivergence.skl_estimator_KL_div"]}
{"id": "C135", "title": "The proposal covariance of MCMC changes only in burn-in, on schedule", "statement": "In a call of MCMCMetropoliHastings.sample, with or without a journal file, proposals are drawn with the given covariance (or the default, or on a restart the stored one) until the first adaptation; after each step of the burn-in whose number is a multiple of adapt_proposal_cov_interval the covariance is recomputed from all the states of the burn-in so far; after the burn-in it is fixed, and it is the one stored in the journal.", "quantifier": "all models, proposals, random numbers, lengths of burn-in and chain, intervals", "why_tests_cant": "The schedule depends on counters, on the burn-in boundary and on the histories of accepted states; a shift by one or adaptation after burn-in leaves a chain that looks the same in a test but no longer has the posterior as invariant law.", "anchors": ["abcpy/inferences.py:MCMCMetropoliHastings.sample"]}
{"id": "C136", "title": "The kernel density is the density of the kernel's draws", "statement": "For MultivariateNormalKernel and MultivariateStudentTKernel, update draws new parameter values from a law whose density with respect to the volume of the parameter space is what pdf returns; the density is symmetric in mean and value; for a JointPerturbationKernel the product of the densities of its parts is the density of the joint update.", "quantifier": "all dimensions, positive definite covariance matrices, means, degrees of freedom, numbers of joined kernels", "why_tests_cant": "The claim equates a law of draws with a function on all of space; importance weights are wrong by an unknown factor at every particle if it fails, and a test can compare only histograms at a few matrices.", "anchors": ["abcpy/perturbationkernel.py:MultivariateNormalKernel.update", "abcpy/perturbationkernel.py:MultivariateNormalKernel.pdf", "abcpy/perturbationkernel.py:MultivariateStudentTKernel.update", "abcpy/perturbationkernel.py:MultivariateStudentTKernel.pdf", "abcpy/perturbationkernel.py:JointPerturbationKernel.pdf"]}
{"id": "C137", "title": "Weighted particles of PMCABC estimate averages under the ABC posterior", "statement": "In every iteration of PMCABC, the parameter returned by the resampling loop, weighted by the computed weight, estimates averages of any function of parameter and data under the prior times the model restricted to accepted data, up to one normalising factor.", "quantifier": "all parameter and data spaces, priors, models, kernels, populations, weights, acceptance regions, numbers of rounds of the loops", "why_tests_cant": "A bias of the weights is a property of the law of a random loop over all populations; finite runs cannot distinguish it from noise.", "anchors": ["abcpy/inferences.py:PMCABC._resample_parameter", "abcpy/inferences.py:PMCABC._calculate_weight"]}
{"id": "C138", "title": "The data behind an accepted particle were simulated with its parameters", "statement": "When a sampler returns a particle together with simulated data or their distance, the data were simulated with the values of exactly this particle (or, for a particle that was kept, are the data it had before), whatever the graph of models held before, and however many proposals were refused in between.", "quantifier": "every graph of models, prior, kernel, simulator, population, threshold, seed, starting content of the graph", "why_tests_cant": "tests look at single runs; whether the values stored in the graph at the time of the simulation are those returned depends on all earlier calls and refusals", "anchors": ["abcpy/inferences.py:PMCABC._resample_parameter", "abcpy/inferences.py:SMCABC._accept_parameter", "abcpy/inferences.py:APMCABC._accept_parameter", "abcpy/inferences.py:SABC._accept_parameter", "abcpy/inferences.py:ABCsubsim._accept_parameter", "abcpy/graphtools.py:GraphTools.set_parameters"]}
{"id": "C139", "title": "On the graph of models, the tasks of the samplers do what the samplers do over parameter vectors", "statement": "If supports do not depend on other parameters, the tasks of PMCABC, SMCABC, RSMCABC, APMCABC, SABC and ABCsubsim, run on a graph that stores values and marks, return exactly what they would return if proposals, prior densities and simulations were functions of parameter vectors, for the seed of each task, with every backend, number of processes and order of tasks, and whatever the graphs held before.", "quantifier": "every graph, prior, kernel, simulator, population, seeds, number of tasks, schedule, starting content of the graph", "why_tests_cant": "the stored values of a graph depend on the whole history of the process; tests see one history", "anchors": ["abcpy/inferences.py:PMCABC._resample_parameter", "abcpy/inferences.py:SMCABC._accept_parameter", "abcpy/inferences.py:SMCABC._accept_parameter_r_hit_kernel", "abcpy/inferences.py:SMCABC._accept_parameter_r_hit_kernel_version_2", "abcpy/inferences.py:RSMCABC._accept_parameter", "abcpy/inferences.py:APMCABC._accept_parameter", "abcpy/inferences.py:SABC._accept_parameter", "abcpy/inferences.py:ABCsubsim._accept_parameter", "abcpy/inferences.py:ABCsubsim._update_cov_mat"]}
{"id": "C140", "title": "A team of processes works in step and returns the leader's result", "statement": "With several processes per model, every list of backend commands (maps, broadcasts, deletions) is carried out by all processes of a team in step: nothing hangs, every process executes every nested call exactly once and in order with the same arguments, broadcast values arrive everywhere, the map returns what the function gives with the results of the leader, an exception is a result of the map, and deleted values are gone in all processes.", "quantifier": "all team sizes, simulators with their own collective operations, map functions, lists of commands, exceptions in any process", "why_tests_cant": "Unit tests run fixed scripts with a few processes; a hang depends on which process raises and on the collective operations in progress.", "anchors": ["abcpy/backends/mpi.py:NestedParallelizationControllerMPI", "abcpy/backends/mpi.py:BackendMPIWorker", "abcpy/backends/mpi.py:BackendMPILeader"]}
{"id": "C141", "title": "Random numbers of a simulation are not used again", "statement": "A task uses no part of its stream of random numbers twice: what a simulation has used is not used for later draws or simulations, with any number of processes per model.", "quantifier": "all sequences of draws and simulations in a task, team sizes one and larger, all streams", "why_tests_cant": "Reuse of random numbers leaves every single result valid; only the joint law is wrong.", "anchors": ["abcpy/graphtools.py:GraphTools.simulate", "abcpy/backends/mpi.py:NestedParallelizationControllerMPI.run_nested"]}
{"id": "C142", "title": "Saved statistics are read back", "statement": "A statistics object with a network that is written with `save_net` and read with `fromFile` has the same values on all data; a crash while saving never leaves files from which other statistics are read.", "quantifier": "every network class, parameters, scaler, wrapper, settings, data and crash point of the save", "why_tests_cant": "Networks, data and crash points range over infinite sets; a wrong nonlinearity raises no error", "anchors": ["abcpy/statistics.py:NeuralEmbedding.fromFile", "abcpy/statistics.py:NeuralEmbedding.save_net", "abcpy/NN_utilities/utilities.py:load_net", "abcpy/NN_utilities/networks.py:DiscardLastOutputNet", "abcpy/NN_utilities/networks.py:createDefaultNN"]}
{"id": "C143", "title": "Learned statistics are a function of the data", "statement": "Calling `statistics` of a learned statistics object twice on the same data gives the same values.", "quantifier": "every network, training history and data", "why_tests_cant": "The network may draw random numbers or change itself at every call; a single call looks right", "anchors": ["abcpy/statistics.py:NeuralEmbedding.statistics", "abcpy/NN_utilities/trainer.py:fit", "abcpy/statisticslearning.py:ExponentialFamilyScoreMatching"]}
{"id": "C144", "title": "The losses of distance learning vanish exactly at separated embeddings", "statement": "The contrastive and the triplet loss of a batch are never negative, and zero exactly when similar samples are embedded as wanted and dissimilar ones are separated by the margin.", "quantifier": "every network, margin and batch", "why_tests_cant": "The equivalence is over all embeddings", "anchors": ["abcpy/NN_utilities/losses.py:ContrastiveLoss", "abcpy/NN_utilities/losses.py:TripletLoss", "abcpy/NN_utilities/networks.py:SiameseNet"]}
{"id": "C145", "title": "The validation loss does not depend on the batch size", "statement": "The loss of an epoch is the mean of the losses of the samples.", "quantifier": "every number of samples, batch size and loss", "why_tests_cant": "Sizes and losses are unbounded", "anchors": ["abcpy/NN_utilities/trainer.py:train_epoch", "abcpy/NN_utilities/trainer.py:test_epoch"]}
{"id": "C146", "title": "A whole run of a sampler does not depend on the backend, the schedule, or what the models held before", "statement": "A run of PMCABC, APMCABC, SMCABC, RSMCABC, SABC or ABCsubsim on a graph of models, with all the values that the models store, with either backend and every assignment of tasks to processes in every order, gives the same journal, thresholds, weights and counters as the run of the algorithm over parameter vectors, in which nothing is stored between tasks.", "quantifier": "All graphs with checks that read no stored values and without arithmetic expressions above the observed models, all priors, kernels, simulators, random seeds, numbers of steps and particles, settings, histories of the models before the run, backends and schedules; for each of the six samplers.", "why_tests_cant": "A test compares two schedules for one seed; the claim is about every schedule of every step and about whatever values the models of any process hold.", "anchors": ["abcpy/inferences.py:PMCABC.sample", "abcpy/inferences.py:APMCABC.sample", "abcpy/inferences.py:SMCABC.sample", "abcpy/inferences.py:RSMCABC.sample", "abcpy/inferences.py:SABC.sample", "abcpy/inferences.py:ABCsubsim.sample", "abcpy/backends/mpi.py:BackendMPIScheduler.map", "abcpy/backends/base.py:BackendDummy.map", "abcpy/graphtools.py:GraphTools"]}
{"id": "C147", "title": "What a run reports about a particle is true of the models", "statement": "In every run on a graph of models that returns, with either backend and any schedule, the values of every reported particle are ones that the models accept, and its reported distance is the distance of data that the models simulate with exactly these values; for PMCABC it is also at most the threshold of the step, and there is one population for each step.", "quantifier": "All graphs as in C146, priors, kernels, simulators, seeds, numbers of steps and particles, settings, backends and schedules, for PMCABC, APMCABC, SABC, ABCsubsim, and SMCABC without resampling.", "why_tests_cant": "A test sees particles of one run; that no schedule and no value left in a model by an earlier task gets into the reported distances is a claim about all of them.", "anchors": ["abcpy/inferences.py:PMCABC.sample", "abcpy/inferences.py:APMCABC.sample", "abcpy/inferences.py:SABC.sample", "abcpy/inferences.py:ABCsubsim.sample", "abcpy/inferences.py:SMCABC.sample", "abcpy/graphtools.py:GraphTools.simulate", "abcpy/graphtools.py:GraphTools.set_parameters"]}
{"id": "C148", "title": "Dropped data sets are released by all processes", "statement": "With the MPI backend, after every program of backend calls, the processes hold the data of exactly those distributed data sets and broadcast values that the program has not dropped; a program that drops everything leaves nothing behind.", "quantifier": "All programs of parallelize, map, collect, broadcast, value and deletions that the backend carries out, all data, numbers of leaders and schedules.", "why_tests_cant": "A test looks at the stores after one short program; a leak depends on the whole history of calls.", "anchors": ["abcpy/backends/mpi.py:BackendMPIScheduler.parallelize", "abcpy/backends/mpi.py:BackendMPIScheduler.delete_remote_pds", "abcpy/backends/mpi.py:BackendMPIScheduler.delete_remote_bds", "abcpy/backends/mpi.py:PDSMPI.__del__", "abcpy/backends/mpi.py:BDSMPI.__del__"]}
{"id": "C149", "title": "Kernels can propose with the covariance matrices of the samplers", "statement": "Whenever the weighted particles have a covariance matrix, a multivariate normal or Student kernel can propose from every particle with the matrix that the sampler hands to it, for any number and sizes of parameters, in every step; the proposed values have the sizes of the current ones.", "quantifier": "All populations, weights, covariance factors, numbers and sizes of the parameters of a kernel, steps and drawn vectors.", "why_tests_cant": "The shape of the array depends on the number of components; tests use two or more parameters.", "anchors": ["abcpy/perturbationkernel.py:MultivariateNormalKernel.calculate_cov", "abcpy/perturbationkernel.py:MultivariateNormalKernel.update", "abcpy/perturbationkernel.py:MultivariateStudentTKernel.update", "abcpy/inferences.py:PMCABC._compute_accepted_cov_mats", "abcpy/inferences.py:ABCsubsim.sample", "abcpy/inferences.py:ABCsubsim._update_cov_mat"]}
{"id": "C150", "title": "Synthetic likelihoods do not depend on whether statistics are stored as integers", "statement": "The semiparametric synthetic log-likelihood of observed statistics given simulated ones is the value of its formula, a sum of the log densities of the kernel estimates and of the log density of the copula of the ranks, whether the arrays of statistics hold integers or floating point numbers.", "quantifier": "All numbers of statistics, observations and simulations, kernel estimates and histories of calls.", "why_tests_cant": "Tests use floating point data; the loss of the fractional parts shows only with integer data, in every value.", "anchors": ["abcpy/approx_lhd.py:SemiParametricSynLikelihood.loglikelihood", "abcpy/approx_lhd.py:SemiParametricSynLikelihood._estimate_gaussian_correlation"]}
{"id": "C151", "title": "MCMC can propose with its default covariance matrices", "statement": "If MCMCMetropoliHastings.sample is called without cov_matrices, every kernel can propose from the starting point: there is one identity matrix for each kernel, with one row for every component of the parameters of that kernel.", "quantifier": "All graphs of models, starting points, numbers and kinds of kernels, sizes of parameters and draws.", "why_tests_cant": "The size of the matrices depends on the number of kernels and the sizes of all parameters; the tests use one kernel and scalar parameters.", "anchors": ["inferences.py:MCMCMetropoliHastings.sample", "perturbationkernel.py:JointPerturbationKernel.update", "perturbationkernel.py:DefaultKernel"]}
{"id": "C152", "title": "The adapted proposal of MCMC lets the chain move", "statement": "After every adaptation of the proposal covariance during the burn-in of MCMCMetropoliHastings.sample the proposals have a positive definite covariance matrix, so that the chain can reach new states.", "quantifier": "All models, data, starting points, lengths of the burn-in, adaptation intervals, covariance factors and random numbers.", "why_tests_cant": "Whether the covariance degenerates depends on which proposals were rejected before the first adaptation.", "anchors": ["inferences.py:MCMCMetropoliHastings.sample", "inferences.py:MCMCMetropoliHastings._compute_accepted_cov_mats", "perturbationkernel.py:MultivariateNormalKernel.calculate_cov"]}
{"id": "C153", "title": "The statistics of a default network", "statement": "The statistics of a learned or loaded statistics object with the default network are, for every sample, the polynomial expansion of the feed-forward network with the stored layers, in the order of their names, applied to the previous statistics of the sample; with reference simulations each column is divided by its standard deviation over the reference simulations.", "quantifier": "All sizes of the layers, parameters, nonlinearities, scalers, previous statistics, degrees, reference simulations, data, modes and numbers of calls.", "why_tests_cant": "Networks and data range over infinite sets, and statistics computed with a layer, a nonlinearity or a scaling missing are numbers like any other.", "anchors": ["statistics.py:NeuralEmbedding.statistics", "statistics.py:NeuralEmbedding.__init__", "NN_utilities/networks.py:createDefaultNN"]}
{"id": "C154", "title": "Data behind approximate likelihoods in MCMC", "statement": "The approximate likelihood of a parameter vector in MCMC is computed from one data set for each observed model, each of the requested number of samples, and every sample was simulated by that model at exactly this vector; with one task for each sample, sample j uses the generator of seed j, for every backend and schedule, and whatever the graph of models held before.", "quantifier": "All graphs of models, parameter vectors, simulators, numbers of samples, seeds, backends, numbers of processes, orders of tasks and contents of the graphs.", "why_tests_cant": "Schedules and earlier contents of the graphs range over unbounded sets, and data simulated at stale parameters look like any other data.", "anchors": ["inferences.py:MCMCMetropoliHastings._simulate_and_compute_log_lik", "inferences.py:MCMCMetropoliHastings._sample_parameter", "graphtools.py:GraphTools.simulate"]}
{"id": "C155", "title": "MCMC on every backend", "statement": "A call of MCMC sampling, new or continuing a journal, writes the journal of a Metropolis-Hastings chain over parameter vectors whose prior densities and likelihoods depend on the vectors and the generator only: the same seed gives the same journal with the sequential and the MPI backend, for every number of processes and order of tasks in every map of simulations, whatever values the graph of models held before the call.", "quantifier": "All graphs of models, priors, simulators, likelihoods, kernels, transformations, arguments, numbers of steps, seeds, backends, schedules of every map, journals and contents of the graphs.", "why_tests_cant": "The schedules of all maps in a chain and the earlier contents of the graphs range over unbounded sets, and a chain that depends on them is a chain like any other.", "anchors": ["inferences.py:MCMCMetropoliHastings.sample", "inferences.py:MCMCMetropoliHastings._simulate_and_compute_log_lik", "inferences.py:MCMCMetropoliHastings._sample_parameter"]}
{"id": "C156", "title": "PMC on every backend", "statement": "A run of PMC, new or continuing a journal, makes the populations, weights, counts of simulations and journal of a run over parameter vectors whose densities, simulations and likelihoods depend on the vectors and seeds only: the same seed gives the same result with the sequential and the MPI backend, for every number of processes and order of tasks in every map, whatever values the graph of models held before.", "quantifier": "All graphs of models, priors, simulators, likelihoods, kernels, numbers of particles and iterations, seeds, backends, schedules of every map, journals and contents of the graphs.", "why_tests_cant": "The schedules of all maps in a run and the earlier contents of the graphs range over unbounded sets, and a population that depends on them looks like any other.", "anchors": ["inferences.py:PMC.sample", "inferences.py:PMC._approx_log_lik_calc", "inferences.py:PMC._calculate_weight"]}
{"id": "C157", "title": "Maps with the Spark backend", "statement": "Parallelising a list, mapping a function of the sampler over it and collecting with the Spark backend returns the results in the order of the list, the same as with the sequential and the MPI backend for functions that do not look at what other tasks left in the sampler; for every number of slices and every history of attempts that are lost and repeated. If it cannot get a result for every element it raises; it never returns a part. The sampler of the driver stays as it is.", "quantifier": "All lists, functions, states of the sampler, divisions into slices, and histories of lost, repeated and duplicated attempts.", "why_tests_cant": "A test runs one division and no losses; Spark is not installed where the unit tests run.", "anchors": ["abcpy/backends/spark.py::BackendSpark", "abcpy/backends/spark.py::PDSSpark"]}
{"id": "C158", "title": "Draws come from the generator that is passed", "statement": "A perturbation by any built-in kernel, and the data that statistics learning with a network trains on, are determined by the values held, the data and the generator or seed that is passed: the same seed gives the same draws whatever else the process has drawn.", "quantifier": "All networks, values, shapes, data sets, generators passed and states of the generator shared by the process.", "why_tests_cant": "Tests that set the shared seed of numpy as well cannot see it, and no finite number of runs shows independence of the shared state.", "anchors": ["abcpy/perturbationkernel.py::NetworkRandomWalkKernel.update", "abcpy/NN_utilities/datasets.py::SiameseSimilarities.__getitem__", "abcpy/NN_utilities/datasets.py::TripletSimilarities.__getitem__"]}
{"id": "C159", "title": "Score matching trains with every number of samples", "statement": "Learning statistics by score matching runs to the end for every positive number of samples and batch size.", "quantifier": "All numbers of samples, batch sizes, numbers of epochs, orders in which the samples are drawn, networks and losses.", "why_tests_cant": "The failure depends on the remainder of the number of samples by the batch size; a test tries one or two pairs.", "anchors": ["abcpy/statisticslearning.py::ExponentialFamilyScoreMatching._train", "abcpy/NN_utilities/networks.py::createDefaultNN"]}
{"id": "C160", "title": "The embedding of the parameters is normalised", "statement": "With batch normalisation the embedding of the parameters that score matching trains on has mean zero and variance v/(v+eps) in every column; after training every row is normalised on its own with moving averages of the means and unbiased variances of the batches.", "quantifier": "All batches with at least two samples, widths, momenta, sequences of batches, and hidden sizes of the default network.", "why_tests_cant": "A statement over all batches and histories of training.", "anchors": ["abcpy/NN_utilities/networks.py::createDefaultNN", "abcpy/statisticslearning.py::ExponentialFamilyScoreMatching"]}
{"id": "C161", "title": "Early stopping of score matching", "statement": "With early stopping, training ends at the first check (every interval of epochs) late enough at which the validation loss is larger than at the previous check of this run, and then the networks are those of the previous check; it never raises on account of the lists of losses.", "quantifier": "All intervals, first epochs, numbers of epochs, networks, losses.", "why_tests_cant": "Indexing from the end of the list and offsets interact for every combination of arguments; weights and saved dictionaries share memory.", "anchors": ["abcpy/statisticslearning.py::ExponentialFamilyScoreMatching._train"]}
{"id": "C162", "title": "The posterior histogram distributes exactly the weights of the particles", "statement": "`posterior_histogram` returns an array with the requested number of bins in each direction and the equally spaced edges from the smallest to the largest value of each component (one half to each side if all values are equal). The entry of a cell is the total weight of the particles in it, a value on an inner edge counting for the right bin and the largest value for the last bin. Every particle is in exactly one cell, so the entries add up to the sum of the weights.", "quantifier": "All stored steps with at least one particle, any number of parameters and components, weights, and positive numbers of bins.", "why_tests_cant": "Boundary values and constant components decide whether particles are lost or counted twice; the statement ranges over all samples, dimensions and bins.", "anchors": ["abcpy/output.py::Journal.posterior_histogram"]}
{"id": "C163", "title": "Learned statistics give the network what it was trained on", "statement": "Statistics learned with a network (by regression, distances or score matching) return for a data set of the training or of the validation set the output of the trained network at exactly the row that was used for this data set in training, whatever scaler and previous statistics are in use; targets are the parameters that the data set was simulated with; with scaling all inputs of the training set lie in [0, 1].", "quantifier": "All chains of previous statistics, generated and given data, numbers of samples, scalings and bounds, training routines and networks.", "why_tests_cant": "A mismatch between training and use changes values silently; the claim ranges over all data, chains and networks.", "anchors": ["abcpy/statisticslearning.py::StatisticsLearningNN.__init__", "abcpy/statisticslearning.py::StatisticsLearningNN.get_statistics", "abcpy/statisticslearning.py::ExponentialFamilyScoreMatching.__init__", "abcpy/statisticslearning.py::ExponentialFamilyScoreMatching.get_statistics", "abcpy/NN_utilities/networks.py::ScalerAndNet"]}
{"id": "C164", "title": "Automatic derivatives are those of each data set's own statistics", "statement": "The Jacobian, the second derivatives and the Hessian computed by automatic differentiation give, for every row of the batch, the derivatives of that row's outputs with respect to that row's inputs, whatever other rows are in the batch; hence score matching with a user-supplied network minimises the same objective as with the default network that computes its derivatives itself.", "quantifier": "All networks as functions of batches, all batch sizes, inputs, outputs and regularisation parameters", "why_tests_cant": "Tests compare numbers of a few networks; the claim is about every differentiable network and fails only for networks that mix the rows of a batch, as batch normalisation does", "anchors": ["abcpy/NN_utilities/utilities.py:jacobian", "abcpy/NN_utilities/utilities.py:jacobian_second_order", "abcpy/NN_utilities/utilities.py:jacobian_hessian", "abcpy/statisticslearning.py:ExponentialFamilyScoreMatching._batch_Fisher_div_with_c_x"]}
{"id": "C165", "title": "Derivatives refuse entries that are not finite", "statement": "A batch whose inputs or outputs contain an entry that is not a finite number is refused with an exception before derivatives are computed; finite entries are never refused.", "quantifier": "All lists of inputs and outputs, with any combination of finite numbers, infinities and NaN", "why_tests_cant": "Tests try a few tensors; the outcome depends on which kinds of entries occur together", "anchors": ["abcpy/NN_utilities/utilities.py:jacobian", "abcpy/NN_utilities/utilities.py:jacobian_second_order", "abcpy/NN_utilities/utilities.py:jacobian_hessian"]}
{"id": "C166", "title": "MCMC leaves the posterior invariant whichever kernel of the library it is given", "statement": "A user may pass any of the perturbation kernels of the library to MCMCMetropoliHastings: whatever the prior, the likelihood and the bounds, one step of the sampler started from the posterior leaves the state distributed according to the posterior.", "quantifier": "all kernels of the library with their parameters, all priors, likelihoods and Jacobians, all measurable sets of states", "why_tests_cant": "Invariance is a statement about the distribution after a step for every set and every target; a test sees finitely many chains of finite length and cannot tell a wrong stationary law from noise.", "anchors": ["abcpy/inferences.py:MCMCMetropoliHastings.sample", "abcpy/perturbationkernel.py:MultivariateNormalKernel.update", "abcpy/perturbationkernel.py:MultivariateStudentTKernel.update", "abcpy/perturbationkernel.py:RandomWalkKernel.update", "abcpy/perturbationkernel.py:NetworkRandomWalkKernel.update", "abcpy/perturbationkernel.py:JointPerturbationKernel.update"]}
{"id": "C167", "title": "Tasks read the population that was handed over last, and no other is kept", "statement": "For every history of hand-overs to the accepted-parameters manager (observations, parameters, weights, covariance matrices, kernel values, each possibly left out) and of rounds of parallel tasks, on the MPI backend with any number of teams and any schedule: the tasks of a round read for each attribute the value handed over last, the answers of the round are those of the tasks applied to these values, and at the end every team leader holds exactly one value per attribute.", "quantifier": "all sequences of manager calls and rounds of tasks, all task functions (also raising ones), all numbers of leaders, all schedules", "why_tests_cant": "A stale or destroyed broadcast shows only for particular orders of creation, destruction and message delivery; tests run one order with few hand-overs.", "anchors": ["abcpy/acceptedparametersmanager.py:AcceptedParametersManager.update_broadcast", "abcpy/acceptedparametersmanager.py:AcceptedParametersManager.update_kernel_values", "abcpy/acceptedparametersmanager.py:AcceptedParametersManager.broadcast", "abcpy/backends/mpi.py:BDSMPI"]}
{"id": "C168", "title": "The next threshold of SMCABC leaves some weight", "statement": "In SMCABC the threshold chosen for the next step leaves at least one particle with a positive weight, so that the normalised weights are numbers and the run can go on", "quantifier": "every population, every old threshold, both versions (Del Moral et al., Bernton et al.), every alpha and epsilon_final, every distance", "why_tests_cant": "tests use distances far from the initial threshold and without ties, so that the bisection always stops on the good side", "anchors": ["abcpy/inferences.py:SMCABC.sample", "abcpy/inferences.py:SMCABC._bisection", "abcpy/inferences.py:SMCABC._def_compute_epsilon"]}
{"id": "C169", "title": "The search for the next threshold of SMCABC ends in floating-point arithmetic", "statement": "With Python's floats the search for the next threshold of SMCABC ends after a bounded number of halvings, with a float between epsilon_final and the last threshold", "quantifier": "every function that is searched, every pair of floats as ends, every rounding that is monotone with a relative error, in particular IEEE 754 binary64", "why_tests_cant": "tests use thresholds of moderate size; whether a midpoint can be rounded to an end of the interval again and again depends on the size of the numbers", "anchors": ["abcpy/inferences.py:SMCABC._bisection"]}
{"id": "C170", "title": "Normalised weights are probabilities for the random choice in floating-point arithmetic", "statement": "The weights that the samplers, the journal and the network kernel normalise are accepted as probabilities by the random choice of numpy, although their floating-point sum is not exactly one: none is negative or larger than one, and the sum is one up to the tolerance", "quantifier": "every list of weights that are not negative and not all zero, up to 2^25 weights, every order of adding them up, in the normalisation and in the check", "why_tests_cant": "tests see a few lists of weights; rounding errors add up with the number of weights", "anchors": ["abcpy/inferences.py:PMCABC.sample", "abcpy/inferences.py:PMC.sample", "abcpy/inferences.py:SABC.sample", "abcpy/inferences.py:APMCABC.sample", "abcpy/inferences.py:SMCABC.sample", "abcpy/output.py:Journal.resample", "abcpy/perturbationkernel.py:NetworkRandomWalkKernel.update"]}
{"id": "C171", "title": "PMC makes weights out of log-likelihoods of every size", "statement": "Whatever the size of the approximate log-likelihoods and whatever constant they leave out, the weights of PMC are numbers, at least one is not zero, and the random choice of the next step accepts them; a common factor of all likelihoods does not change them", "quantifier": "every list of log-weights, numbers or minus infinity, every number of particles up to 2^25, every order of summation; exponentials and quotients may underflow", "why_tests_cant": "tests use likelihoods of moderate size, where exponentiating without centring would work as well", "anchors": ["abcpy/inferences.py:PMC.sample", "abcpy/inferences.py:PMC._approx_log_lik_calc"]}
{"id": "C172", "title": "The chain of MCMCMetropoliHastings forgets its first state", "statement": "Whatever point of positive prior density the chain starts from, the probability that its state after n steps lies in a set approaches the posterior probability of the set, with an error that shrinks geometrically at a rate that does not depend on the start; hence the expected fraction of the samples in a set is right up to a term that vanishes with the burn-in and with the number of samples", "quantifier": "every number of continuous parameters, every prior with bounded support, every likelihood that is a function of the parameters and Jacobian with bounded prior * likelihood / Jacobian, every normal or Student kernel with a fixed symmetric positive definite matrix, every start, number of steps and measurable set", "why_tests_cant": "tests run a few hundred steps and look at means with a tolerance; convergence is a statement about all numbers of steps and all sets", "anchors": ["abcpy/inferences.py:MCMCMetropoliHastings.sample", "abcpy/perturbationkernel.py:MultivariateNormalKernel.update", "abcpy/perturbationkernel.py:MultivariateStudentTKernel.update"]}
{"id": "C173", "title": "Weighted particles of PMC estimate averages under the posterior", "statement": "In every iteration of PMC, a new particle with the weight computed for it estimates averages of any function of parameter and data under prior times likelihood estimate, up to one normalising factor", "quantifier": "all parameter and data spaces, priors, models, likelihood estimates, kernels, populations and weights, numbers of rounds of the perturbation loop", "why_tests_cant": "A bias of the weights is a property of the law of the particles over all populations; finite runs cannot distinguish it from noise", "anchors": ["abcpy/inferences.py:PMC.sample", "abcpy/inferences.py:PMC._approx_log_lik_calc", "abcpy/inferences.py:PMC._calculate_weight"]}
{"id": "C174", "title": "Averages over the samples of MCMCMetropoliHastings converge to posterior averages", "statement": "Whatever the state at the end of the burn-in, the mean of a bounded function of the parameters over the N samples of the journal, in particular the posterior mean it reports for a parameter of bounded support, tends in probability to the mean under the posterior; the mean squared error is at most a constant divided by N", "quantifier": "every number of continuous parameters, every prior with bounded support, every likelihood estimate with bounded prior * estimate / Jacobian, every normal or Student kernel with a fixed symmetric positive definite matrix, every law of the state after the burn-in, every bounded function, number of samples and tolerance", "why_tests_cant": "a statement about all numbers of samples and the joint law of a dependent sequence; a test sees one run and needs a tolerance", "anchors": ["abcpy/inferences.py:MCMCMetropoliHastings.sample", "abcpy/output.py:Journal.posterior_mean", "abcpy/perturbationkernel.py:MultivariateNormalKernel.update", "abcpy/perturbationkernel.py:MultivariateStudentTKernel.update"]}
{"id": "C175", "title": "The classifier distance scores every row with a classifier that has not seen it", "statement": "For data sets of the same size whose folds are not empty, PenLogReg.distance is twice the excess over one half of the mean over the folds of the share of the rows of the fold that are assigned to the right data set by a classifier trained on exactly the rows outside the fold; fold g has the g-th block of ceil(n / folds) consecutive rows of either data set; with an empty fold there is no distance", "quantifier": "every pair of data sets of the same size, every number of folds, every training procedure", "why_tests_cant": "a test with one classifier cannot tell whether rows of the fold were used for training; it must hold for every classifier and size", "anchors": ["abcpy/distances.py:PenLogReg.distance"]}
{"id": "C176", "title": "The classifier likelihood is the log ratio of the densities", "statement": "If the fitted logistic model has the true probabilities of the two classes (rows simulated at the parameters and rows of the reference data, as many of each), PenLogReg.loglikelihood returns the log density of the observed statistics under the simulator minus that under the reference data, so that differences between parameter values are differences of log-likelihoods", "quantifier": "every intercept, coefficients, observed data and pair of densities that are positive at the observations", "why_tests_cant": "the sign and the form of the value can be checked on examples only; the claim is about all data and densities", "anchors": ["abcpy/approx_lhd.py:PenLogReg.loglikelihood"]}
{"id": "C177", "title": "Averages over the samples of RejectionABC converge to ABC posterior averages", "statement": "With probability one every task ends, and the mean of any integrable function of the parameters over the first n samples tends, as n grows, to its mean over the accepted pairs of parameters and data; for every n the mean squared error is exactly the variance under the ABC posterior divided by n", "quantifier": "every prior, simulator (which may refuse), distance and threshold such that something is accepted with positive probability, every integrable function of the parameters, every number of samples", "why_tests_cant": "a statement about laws and limits: a test sees one run and needs a tolerance", "anchors": ["abcpy/inferences.py:RejectionABC.sample", "abcpy/inferences.py:RejectionABC._sample_parameter", "abcpy/output.py:Journal.posterior_mean"]}
{"id": "C178", "title": "The ABC posterior tends to the posterior as the threshold tends to zero", "statement": "The mean of a function of the parameters under the law of the accepted parameters is that under the prior weighted by the probability of acceptance; if only the observed data are accepted it is the posterior mean; if the data have a bounded density that is continuous at the observed data, it tends to the posterior mean as epsilon tends to zero", "quantifier": "every prior, simulator with such densities, distance whose balls shrink to the observed data, integrable function of the parameters", "why_tests_cant": "a limit over thresholds of averages over infinitely many simulations", "anchors": ["abcpy/inferences.py:RejectionABC.sample", "abcpy/inferences.py:RejectionABC._sample_parameter"]}
{"id": "C179", "title": "Weighted particles of SMCABC estimate averages under the ABC posterior", "statement": "Without resampling, after any number of steps of SMCABC (version of Del Moral et al., standard kernel) with any decreasing thresholds and any kernels adapted to any populations, the expected weighted value of any function of a particle's parameters and simulation, divided by the expected weight, is its average under the prior weighted by the number of parts of a simulation closer than the last threshold. Each move by itself leaves that distribution as it is. This fails if the initial threshold separates the parts of a simulation.", "quantifier": "all priors, simulators, distances, kernels with densities, sequences of decreasing thresholds and numbers of steps, and all functions of parameters and simulation", "why_tests_cant": "A test sees single random runs; that the weights and moves together give averages that are right for every model and every sequence of thresholds is a statement about the law of the run.", "anchors": ["abcpy/inferences.py:SMCABC.sample", "abcpy/inferences.py:SMCABC._accept_parameter"]}
{"id": "C180", "title": "Plots of the posterior show the parameters in their labels", "statement": "plot_posterior_distr succeeds for every choice of different parameters of a journal with two or more particles; the figure has the panels that were asked for (single densities, one panel for every two parameters, or the matrix of both), and along every axis it shows the samples of the parameter named in the label in the chosen iteration, their weighted mean, the true value given for this parameter and limits that are those given or contain all samples. If a name is given twice, a panel can show the samples of another parameter.", "quantifier": "all journals, iterations, lists of parameters, true values, ranges and options", "why_tests_cant": "A test of a plot compares pictures of one journal; that labels, samples, means, true values and limits belong together must hold for every list of names and every option.", "anchors": ["abcpy/output.py:Journal.plot_posterior_distr"]}
{"id": "C181", "title": "Ranges given for plots are used and left as they are", "statement": "A range given for a parameter as a list or array of two numbers is used as limits, and the dictionary of ranges that is given is not changed by the call. Arrays are always refused, and a dictionary that lacks a parameter is changed, so that a later call with it draws other samples within the limits of the first.", "quantifier": "all journals, dictionaries of ranges and sequences of calls that share one", "why_tests_cant": "Only sequences of calls that share a dictionary show the effect, and only for parameters without a given range.", "anchors": ["abcpy/output.py:Journal.plot_posterior_distr"]}
{"id": "C182", "title": "Posterior means of PMCABC and PMC converge", "statement": "For a given previous population, the posterior mean that the journal computes from the weighted particles of the next iteration of PMCABC or PMC exists for enough particles and converges with probability one to the mean under the ABC posterior (for PMC: the posterior for the approximate likelihood) as the number of particles grows. The probability of an error above a given size goes down like one over the number of particles, with a constant that depends on the prior and the previous population only through the largest ratio of prior density and density of perturbed particles.", "quantifier": "every prior density, simulator, perturbation kernel with densities, previous weighted population, acceptance region, function of the parameters with finite mean, and every number of particles", "why_tests_cant": "Convergence is a statement about infinitely many particles and probability one; a run with some number of particles can only show numbers near the limit, and a biased limit looks the same.", "anchors": ["abcpy/inferences.py:PMCABC.sample", "abcpy/inferences.py:PMCABC._calculate_weight", "abcpy/inferences.py:PMCABC._resample_parameter", "abcpy/inferences.py:PMC.sample", "abcpy/output.py:Journal.posterior_mean"]}
{"id": "C183", "title": "Every kernel of a joint kernel proposes with its own matrix", "statement": "For a joint kernel of any number of kernels, the matrix that kernel number i proposes with is the weighted covariance of the values of its own parameters, times its factor, plus the stabilising multiple of the identity; random walks get a zero that they do not use. With these matrices a proposal can be made from every particle, and the numbers drawn by a kernel become the new values of the parameters of that kernel, in blocks of the right sizes.", "quantifier": "all lists of kernels, populations, weights, factors and drawn numbers", "why_tests_cant": "The pairing of kernels, factors, matrices and parameters by position must hold for every number of kernels and sizes; tests use one or two kernels.", "anchors": ["abcpy/perturbationkernel.py:JointPerturbationKernel.calculate_cov", "abcpy/perturbationkernel.py:JointPerturbationKernel.update", "abcpy/perturbationkernel.py:RandomWalkKernel.calculate_cov", "abcpy/perturbationkernel.py:NetworkRandomWalkKernel.calculate_cov", "abcpy/inferences.py:PMCABC._compute_accepted_cov_mats", "abcpy/inferences.py:PMC._compute_accepted_cov_mats", "abcpy/inferences.py:PMC.sample"]}
{"id": "C184", "title": "Averages over the journalled particles of APMCABC are ABC posterior averages", "statement": "For a given previous population and threshold, the posterior mean that is computed from the particles and weights in the journal of APMCABC converges to the mean under the ABC posterior for the threshold that the journal lists, as the number of particles grows.", "quantifier": "every prior, simulator, perturbation kernel with densities, previous weighted population, threshold, and function of the parameters with finite mean", "why_tests_cant": "The limit is about infinitely many particles; for a finite number a wrong limit looks like sampling error.", "anchors": ["abcpy/inferences.py:APMCABC.sample", "abcpy/inferences.py:APMCABC._accept_parameter", "abcpy/output.py:Journal.posterior_mean"]}
{"id": "C185", "title": "The trace plot follows each parameter through the chain", "statement": "For a journal of the Metropolis-Hastings sampler, traceplot draws for every requested parameter, in the order of the request, a panel with its name and one line per component that has at step i the value of the component in sample i. Other journals and unknown names are refused.", "quantifier": "every chain, every number and dimension of parameters, every request", "why_tests_cant": "A test looks at one figure; what is drawn depends on the shape of the samples for every length of the chain and every dimension.", "anchors": ["abcpy/output.py:Journal.traceplot"]}
{"id": "C186", "title": "The plot of effective sample sizes keeps below its line", "statement": "plot_ESS draws for every step a point at the number of the step with the effective sample size of its weights; all points lie between one and the line called maximal theoretical value, and on the line only if the weights of the step are equal.", "quantifier": "every number of steps, every list of weights", "why_tests_cant": "The bound is an inequality over all weights and all histories of sizes.", "anchors": ["abcpy/output.py:Journal.plot_ESS", "abcpy/output.py:Journal.add_ESS_estimate"]}
{"id": "C187", "title": "With bounds the Metropolis-Hastings sampler samples the posterior of the parameters themselves", "statement": "When bounds are given for the parameters, a step of the Metropolis-Hastings sampler, which proposes in a transformed space, leaves invariant the posterior of the original parameters inside the bounds: prior density times likelihood, with no trace of the transformation.", "quantifier": "every number of parameters and kinds of bounds, every prior density and log-likelihood, every set of parameters", "why_tests_cant": "The statement is about the law of a step for all priors and likelihoods; a test sees one chain.", "anchors": ["abcpy/inferences.py:MCMCMetropoliHastings.sample", "abcpy/transformers.py:BoundedVarTransformer.transform", "abcpy/transformers.py:BoundedVarTransformer.inverse_transform", "abcpy/transformers.py:BoundedVarTransformer.jac_log_det"]}
{"id": "C188", "title": "The adapted proposal matrix is the covariance of the chain where proposals are made", "statement": "When the Metropolis-Hastings sampler adapts its proposals, the matrix it proposes with afterwards gives every linear combination of the parameters the factor times its sample variance over the states of the chain so far, in the space the proposals are made in, up to a stabilisation, and proposals can be drawn with it.", "quantifier": "every chain, every number of parameters, every factor, with and without bounds, every interval", "why_tests_cant": "The matrix depends on the whole history of the chain and on the transformation; a test looks at one chain.", "anchors": ["abcpy/inferences.py:MCMCMetropoliHastings.sample", "abcpy/inferences.py:MCMCMetropoliHastings._compute_accepted_cov_mats", "abcpy/perturbationkernel.py:MultivariateNormalKernel.calculate_cov"]}
{"id": "C189", "title": "A process that dies leaves the journal of a shorter run", "statement": "If a process running sample of PMC, SABC, ABCsubsim, RSMCABC, APMCABC or SMCABC with path_to_save_journal dies or raises at any time, the file holds the populations that the same call with fewer steps would have returned: all steps that had ended.", "quantifier": "every crash point of every call, every configuration, all draws, with and without full output", "why_tests_cant": "A crash can happen at any moment of any run; a test kills one run at one place.", "anchors": ["abcpy/inferences.py:PMC.sample", "abcpy/inferences.py:SABC.sample", "abcpy/inferences.py:ABCsubsim.sample", "abcpy/inferences.py:RSMCABC.sample", "abcpy/inferences.py:APMCABC.sample", "abcpy/inferences.py:SMCABC.sample", "abcpy/output.py:Journal.save"]}
{"id": "C190", "title": "Parameters that reach the simulator through arithmetic are informed by the data", "statement": "For a simulator whose inputs are sums, differences, products, quotients or powers of random variables, RejectionABC returns parameters with the probabilities that they have, under the prior and the simulator at the values of these expressions, given that the simulated data are within the threshold of the observed data", "quantifier": "every graph of models with expressions, every observed data, distance and threshold, every law of the random numbers", "why_tests_cant": "the property is about the probabilities of what is returned, over all graphs, and the defect leaves every returned sample plausible: it lies in the support of the prior, its data are within the threshold, and only the relation between the two is lost", "anchors": ["abcpy/inferences.py:RejectionABC._sample_parameter", "abcpy/probabilisticmodels.py:ModelResultingFromOperation.sample_from_input_models", "abcpy/probabilisticmodels.py:SummationModel.forward_simulate", "abcpy/graphtools.py:GraphTools.sample_from_prior"]}
{"id": "C191", "title": "A proposal with positive prior density is not refused because of the number of parameters", "statement": "The samplers draw a proposal again only while its prior density is zero: a proposal at which every parameter has a positive density is accepted, and the loop ends", "quantifier": "every graph of models, every number of parameters, every kernel and proposal, products of densities in floating-point arithmetic with gradual underflow", "why_tests_cant": "for the few parameters of a test the product of the densities is far from the smallest float; whether the product stays positive is a statement about all graphs and all vectors, and the failure is a loop without end", "anchors": ["abcpy/graphtools.py:GraphTools.pdf_of_prior", "abcpy/inferences.py:PMCABC._resample_parameter", "abcpy/inferences.py:PMC._resample_parameter", "abcpy/inferences.py:SMCABC._accept_parameter"]}
{"id": "C192", "title": "A simulation whose distance is not a number is not accepted", "statement": "RejectionABC and PMCABC accept a simulation only if its distance to the observations is at most the threshold: a simulation whose distance is NaN is not accepted, and does not change how the others are treated", "quantifier": "every model, distance, threshold, number of particles and steps, every sequence of distances with or without NaN", "why_tests_cant": "a NaN appears for rare simulations only (a zero variance, a division by zero), and a run has unboundedly many simulations and steps; that none of them lets a NaN through is a statement about all histories", "anchors": ["abcpy/inferences.py:RejectionABC._sample_parameter", "abcpy/inferences.py:PMCABC.sample", "abcpy/inferences.py:PMCABC._resample_parameter"]}
{"id": "C193", "title": "With a fixed budget, simulations whose distance is not a number are dropped", "statement": "RejectionABC with a budget of simulations keeps exactly the simulations below the cutoff, given as a threshold or as a quantile of the distances: those whose distance is NaN are dropped, the others are kept with their distances", "quantifier": "every budget, every list of simulations, every threshold and quantile, distances with or without NaN", "why_tests_cant": "which simulations have a NaN depends on the random numbers; the statement is about every list of distances", "anchors": ["abcpy/inferences.py:RejectionABC.sample"]}
{"id": "C194", "title": "A proposal whose likelihood is not a number is refused, and nothing else changes", "statement": "MCMCMetropoliHastings treats a likelihood that is NaN as zero: such proposals are refused, the other proposals are accepted with the Metropolis-Hastings probability", "quantifier": "every model, approximate likelihood (with values that are real, infinite or NaN), prior, proposal, starting point, burn-in and length of the chain", "why_tests_cant": "the likelihood is NaN for rare simulations only; what one NaN does to the rest of a chain of any length cannot be seen in short runs", "anchors": ["abcpy/inferences.py:MCMCMetropoliHastings.sample", "abcpy/inferences.py:MCMCMetropoliHastings._simulate_and_compute_log_lik"]}
{"id": "C195", "title": "In SMCABC a simulation whose distance is NaN counts as one that is too far", "statement": "A simulation whose distance is NaN or infinite counts as one whose distance is above every threshold: it gets no weight, moves to it are refused, and the run is the one in which its distance is any number that is at least the first threshold", "quantifier": "every model, distance, kernel, number of particles, steps and simulations per parameter, both kinds of weights, every sequence of distances with or without NaN and infinities", "why_tests_cant": "a NaN appears for rare simulations only, and its effect on the thresholds and weights of later steps depends on the whole history", "anchors": ["abcpy/inferences.py:SMCABC.sample", "abcpy/inferences.py:SMCABC._accept_parameter", "abcpy/inferences.py:SMCABC._def_compute_epsilon", "abcpy/inferences.py:SMCABC._accept_parameter_r_hit_kernel"]}
{"id": "C196", "title": "One simulation whose distance is NaN does not spoil a run of APMCABC", "statement": "If the distance of a simulation is NaN, APMCABC goes on with the other simulations, and the next threshold is the quantile of their distances", "quantifier": "every model, distance, kernel, quantile, number of particles and steps, every sequence of distances with or without NaN", "why_tests_cant": "a NaN appears for rare simulations only; the statement is about every step in which it may appear and about all steps after it", "anchors": ["abcpy/inferences.py:APMCABC.sample", "abcpy/inferences.py:APMCABC._accept_parameter"]}
{"id": "C197", "title": "SABC never prefers a simulation whose distance is NaN", "statement": "A proposal whose distance is NaN is not accepted more easily than one whose distance is a number, in the first population and in the moves of SABC", "quantifier": "every model, distance, kernel, configuration, number of steps, every sequence of distances with or without NaN", "why_tests_cant": "a NaN appears for rare simulations only; an accepted one stays in the population for a number of steps that has no bound", "anchors": ["abcpy/inferences.py:SABC.sample", "abcpy/inferences.py:SABC._accept_parameter", "abcpy/inferences.py:SABC._smoother_distance"]}
{"id": "C198", "title": "RSMCABC does not keep a particle whose distance is NaN", "statement": "A simulation whose distance is NaN counts as one that is too far: RSMCABC does not put it into a population, it does not change thresholds, and later steps go on with the other particles", "quantifier": "every model, distance, kernel, configuration, number of steps and every sequence of distances with or without NaN and infinities", "why_tests_cant": "a NaN appears for rare simulations only, and its effect on the order of the particles and on the thresholds of later steps depends on the whole history", "anchors": ["abcpy/inferences.py:RSMCABC.sample", "abcpy/inferences.py:RSMCABC._accept_parameter"]}
{"id": "C199", "title": "A simulation whose distance is NaN does not stop ABCsubsim from moving", "statement": "A simulation whose distance is NaN counts as one that is too far: ABCsubsim does not move to it, its annealing parameter is computed from the distances that are numbers, and the chains of later steps go on moving", "quantifier": "every model, distance, kernel, configuration, number of steps and every sequence of distances with or without NaN and infinities", "why_tests_cant": "a NaN appears for rare simulations only, and its effect on the annealing parameter and the chains of later steps depends on the whole history", "anchors": ["abcpy/inferences.py:ABCsubsim.sample", "abcpy/inferences.py:ABCsubsim._accept_parameter", "abcpy/inferences.py:ABCsubsim._update_cov_mat"]}
{"id": "C200", "title": "A particle whose likelihood is not a number does not spoil a run of PMC", "statement": "A particle whose log-likelihood is NaN counts as one without likelihood: it gets weight zero, the weights of the others are those of population Monte Carlo, and the run goes on; a log-likelihood of minus infinity counts as likelihood zero", "quantifier": "every model, approximate likelihood, kernel, number of particles and steps, every sequence of log-likelihoods with or without NaN and infinities", "why_tests_cant": "likelihoods that are not numbers appear for rare simulations only; the statement is about every step in which one may appear and about all steps after it", "anchors": ["abcpy/inferences.py:PMC.sample", "abcpy/inferences.py:PMC._approx_log_lik_calc", "abcpy/inferences.py:PMC._calculate_weight"]}
{"id": "C201", "title": "The number of simulations of RejectionABC tells the acceptance probability", "statement": "A run of RejectionABC for n samples needs n / p simulations on average, p being the probability that the data set simulated from the prior is accepted; the number of simulations deviates from this with variance n (1 - p) / p^2; with probability one the ratio of samples to recorded simulations tends to p; if p is zero the run never ends", "quantifier": "every prior, simulator (with or without refusals), distance and threshold below the largest distance, every number of samples, and almost every sequence of random numbers", "why_tests_cant": "the number of simulations is random and unbounded: a test sees one number, and the statement is about its law and its limit", "anchors": ["abcpy/inferences.py:RejectionABC._sample_n_samples_epsilon", "abcpy/inferences.py:RejectionABC._sample_parameter"]}
{"id": "C202", "title": "Burn-in drops the beginning of the chain", "statement": "MCMC without adaptation: sampling n states after b states of burn-in gives the same chain as sampling b + n states without burn-in and dropping the first b of them, in the parameters, the columns per name, the weights and the number of samples; the simulations, the last likelihood and the random generator afterwards are the same, one call fails exactly if the other does, and the acceptance rate counts the moves among the kept states only", "quantifier": "every model, kernel, likelihood, transform, starting point, generator state, b and n", "why_tests_cant": "the equality of two runs for all lengths, kernels and outcomes of random numbers; a test compares one pair of runs", "anchors": ["abcpy/inferences.py:MCMCMetropoliHastings.sample"]}
{"id": "C203", "title": "Densities need to be known up to a constant factor only", "statement": "Multiplying the prior density by a positive constant, the kernel density by another and the likelihood by a third changes no sample, no weight, no distance and no threshold of a run", "quantifier": "every sampler, model, kernel, constant, configuration and outcome of random numbers", "why_tests_cant": "the equality of two runs for all constants and all outcomes of random numbers: a test compares one pair of runs, and in floating point arithmetic not exactly", "anchors": ["abcpy/inferences.py:MCMCMetropoliHastings.sample", "abcpy/inferences.py:PMC.sample", "abcpy/inferences.py:PMC._calculate_weight", "abcpy/inferences.py:PMCABC.sample", "abcpy/inferences.py:PMCABC._calculate_weight", "abcpy/inferences.py:SMCABC.sample", "abcpy/inferences.py:RSMCABC.sample", "abcpy/inferences.py:SABC.sample", "abcpy/inferences.py:ABCsubsim.sample", "abcpy/inferences.py:APMCABC.sample", "abcpy/inferences.py:APMCABC._accept_parameter"]}
{"id": "C204", "title": "The unit of the distance does not matter", "statement": "With all distances, the largest distance and the thresholds given measured in another unit, a run gives the same particles, weights and numbers of simulations, and the same distances and thresholds in the other unit", "quantifier": "every ABC sampler, model, kernel, positive factor, configuration and outcome of random numbers", "why_tests_cant": "the equality of two runs for all units and all outcomes of random numbers; a test compares one pair of runs for one factor", "anchors": ["abcpy/inferences.py:RejectionABC.sample", "abcpy/inferences.py:RejectionABC._journal_cleanup", "abcpy/inferences.py:PMCABC.sample", "abcpy/inferences.py:RSMCABC.sample", "abcpy/inferences.py:APMCABC.sample", "abcpy/inferences.py:ABCsubsim.sample", "abcpy/inferences.py:SABC.sample", "abcpy/inferences.py:SABC._average_redefined_distance", "abcpy/inferences.py:SMCABC.sample", "abcpy/inferences.py:SMCABC._bisection"]}
{"id": "C205", "title": "The first population of PMCABC and RSMCABC is a rejection sample", "statement": "For the same problem and workers in the same states, one step of PMCABC, and the first step of RSMCABC, give the particles, distances and number of simulations of RejectionABC for the same threshold (PMCABC with equal weights that sum to one), and one fails exactly if the other does", "quantifier": "every prior, simulator, distance, threshold below the largest distance and at least the final one, number of samples that RejectionABC allows, states of workers and random numbers", "why_tests_cant": "the agreement of two programs for all problems and random numbers; their own loops draw random numbers without bound", "anchors": ["abcpy/inferences.py:RejectionABC._sample_n_samples_epsilon", "abcpy/inferences.py:RejectionABC._sample_parameter", "abcpy/inferences.py:PMCABC.sample", "abcpy/inferences.py:PMCABC._resample_parameter", "abcpy/inferences.py:RSMCABC.sample", "abcpy/inferences.py:RSMCABC._accept_parameter"]}
{"id": "C206", "title": "The order of the particles and the unit of the weights do not matter to the summaries of a journal", "statement": "posterior_mean, posterior_cov, posterior_histogram and the effective sample size of a step do not change if its particles and weights are put into another order, and multiplying all weights by a positive number changes only the entries of the histogram, by that number", "quantifier": "every table of particles with any number of parameters, of any dimensions, all weights, every order, every positive factor, every number of bins", "why_tests_cant": "tests use one order and normalised weights", "anchors": ["abcpy/output.py:posterior_mean", "abcpy/output.py:posterior_cov", "abcpy/output.py:posterior_histogram", "abcpy/output.py:add_ESS_estimate"]}
{"id": "C207", "title": "A tighter threshold of RejectionABC only drops or replaces particles that are too far", "statement": "For the same random numbers: a call with a smaller threshold needs at least as many simulations in every task, returns the particles of the call with the larger threshold that are within the smaller one at the same places, and with a budget of simulations returns exactly those of them that are below it; if it returns, so does the call with the larger threshold", "quantifier": "every prior, simulator, distance, pair of thresholds below the largest distance, random numbers, number of samples", "why_tests_cant": "tests compare no two runs, and the claim is about every pair of thresholds", "anchors": ["abcpy/inferences.py:RejectionABC.sample", "abcpy/inferences.py:RejectionABC._sample_parameter", "abcpy/inferences.py:RejectionABC._journal_cleanup"]}
{"id": "C208", "title": "The weights of PMCABC are numbers", "statement": "Every population that PMCABC returns has weights that are finite numbers and sum to one, whatever the particles are, so that means, covariances and later steps can be computed from them", "quantifier": "every prior, simulator, distance, kernel, schedule of thresholds, number of steps, random numbers, number of samples", "why_tests_cant": "tests use kernels whose density does not underflow; the failure needs a particle that is far from all old ones on the scale of the kernel", "anchors": ["abcpy/inferences.py:PMCABC.sample", "abcpy/inferences.py:PMCABC._calculate_weight", "abcpy/inferences.py:PMCABC._resample_parameter"]}
{"id": "C209", "title": "More steps continue the same run", "statement": "A call of sample with more steps (MCMC: more samples) and the same random numbers begins like the call with fewer: the shorter call returns whenever the longer one does, and its journal holds the first populations (states, columns, weights) of the longer one", "quantifier": "every sampler but RejectionABC, every prior, simulator, distance or likelihood, kernel, random numbers, number of particles, pair of numbers of steps; runs that stop early included", "why_tests_cant": "tests compare no two runs; nothing prevents a sampler from letting the number of steps influence the early ones, as a schedule of thresholds or temperatures spread over the steps would do", "anchors": ["abcpy/inferences.py:PMCABC.sample", "abcpy/inferences.py:PMC.sample", "abcpy/inferences.py:SABC.sample", "abcpy/inferences.py:ABCsubsim.sample", "abcpy/inferences.py:RSMCABC.sample", "abcpy/inferences.py:APMCABC.sample", "abcpy/inferences.py:SMCABC.sample", "abcpy/inferences.py:MCMCMetropoliHastings.sample"]}
{"id": "C210", "title": "full_output decides what is kept and nothing else", "statement": "A call of sample without full output goes through the same populations as the call with full output and the same random numbers; it fails exactly if that call does, reports the same thresholds and the same number of simulations, and its journal holds the last population of the other journal", "quantifier": "every sampler with steps, every prior, simulator, distance or likelihood, kernel, random numbers, number of particles and steps", "why_tests_cant": "tests run one setting at a time and compare no two runs", "anchors": ["abcpy/inferences.py:PMCABC.sample", "abcpy/inferences.py:PMC.sample", "abcpy/inferences.py:SABC.sample", "abcpy/inferences.py:ABCsubsim.sample", "abcpy/inferences.py:RSMCABC.sample", "abcpy/inferences.py:APMCABC.sample", "abcpy/inferences.py:SMCABC.sample"]}
{"id": "C211", "title": "Prior samples have the probabilities that the prior density says", "statement": "The probability that sampling from the prior produces a parameter vector is the value that the prior density has there, divided by the probability that an attempt to sample gets through", "quantifier": "every model graph, all random variables with their supports and input checks, every distribution of the random numbers (finite, or with densities), every number of attempts", "why_tests_cant": "a test draws a finite sample, and the density and the sampler are separate pieces of code that walk the graph in different orders", "anchors": ["abcpy/graphtools.py:GraphTools.sample_from_prior", "abcpy/graphtools.py:GraphTools.pdf_of_prior", "abcpy/graphtools.py:GraphTools._recursion_pdf_of_prior", "abcpy/probabilisticmodels.py:ProbabilisticModel._forward_simulate_and_store_output"]}
{"id": "C212", "title": "Rejection sampling draws from the prior density times the probability of acceptance", "statement": "For models given as a graph, averages over the parameters that RejectionABC returns are, up to a factor that is the same for all quantities, integrals against the value of the prior density at these parameters times the probability that data simulated with them are within the threshold", "quantifier": "every model graph and all densities of the random variables, every simulator that looks at the parameters, every distance and threshold, every bound on the number of trials", "why_tests_cant": "a test compares finite samples with a posterior that is known in special cases only; the draws from the prior, the simulations and the density are separate walks over the graph", "anchors": ["abcpy/inferences.py:RejectionABC._sample_parameter", "abcpy/graphtools.py:GraphTools.sample_from_prior", "abcpy/graphtools.py:GraphTools.pdf_of_prior", "abcpy/graphtools.py:GraphTools.simulate"]}
{"id": "C213", "title": "An interrupted operation does not affect the operations after it", "statement": "When an operation on the models is interrupted at any point, by an exception in user code or by the user, the calls after it work on the values that are stored, as if nothing had been interrupted", "quantifier": "every model graph, every point at which an operation is interrupted, every operation after it", "why_tests_cant": "the points at which an exception can occur are many, and the marks that are left show their effect in another call", "anchors": ["abcpy/graphtools.py:GraphTools._reset_flags", "abcpy/graphtools.py:GraphTools.sample_from_prior", "abcpy/graphtools.py:GraphTools.get_parameters", "abcpy/graphtools.py:GraphTools.set_parameters", "abcpy/graphtools.py:GraphTools.pdf_of_prior"]}
{"id": "C214", "title": "Simulators that refuse parameters do not stop a sampler", "statement": "If a simulator refuses the parameters it is given (its input check is false, so that simulating returns nothing), a sampler treats the proposal as one whose data are too far from the observation: it is counted and the next one is drawn. A run with refusals is the run in which the refused simulations lie beyond the threshold.", "quantifier": "all models with partial simulators, priors, thresholds, seeds, numbers of samples and steps", "why_tests_cant": "Which proposals are refused depends on the random stream; a test with one seed may never meet a refusal, and the effect is an exception in the middle of a long run.", "anchors": ["abcpy/inferences.py:RejectionABC._sample_parameter", "abcpy/inferences.py:PMCABC._resample_parameter", "abcpy/graphtools.py:GraphTools.simulate", "abcpy/distances.py:Distance._calculate_summary_stat"]}
{"id": "C215", "title": "Sampled pairs follow the joint law of prior and simulator", "statement": "A pair of parameters and simulated data drawn from the prior with its simulations has the density that the prior density function gives to the parameters, times the law of the simulator at these parameters. If too large simulations are to be discarded, the pair has this law conditioned on data that are not too large.", "quantifier": "all graphs of models without discrete parameters reached along two paths and without arithmetic between parameters, all densities, simulators, functions of the pair, numbers of attempts and rounds", "why_tests_cant": "A statement about integrals over all random numbers; tests compare a few moments of one model with a tolerance.", "anchors": ["abcpy/inferences.py:DrawFromPrior.sample_par_sim_pairs", "abcpy/inferences.py:DrawFromPrior._sample_parameter_simulation", "abcpy/inferences.py:InferenceMethod.sample_from_prior", "abcpy/inferences.py:InferenceMethod.pdf_of_prior"]}
{"id": "C216", "title": "A simulation that matches the observation as well as possible is never rejected for its distance", "statement": "If no data set can be closer to the observation than a given distance (for example because it reproduces the observation and the distance is zero), then a proposal whose simulated data have this distance is near enough for every threshold that can be met at all: the sampler accepts or keeps it, also when the threshold has come down to this distance.", "quantifier": "all models, distances, thresholds, populations, random streams and numbers of steps; RejectionABC, PMCABC, RSMCABC, SMCABC, ABCsubsim and APMCABC", "why_tests_cant": "Thresholds in tests are chosen large, and continuous distances almost never tie; that a run freezes or fails at the smallest distance depends on the whole run and on strict comparisons in four different places.", "anchors": ["abcpy/inferences.py:RejectionABC._sample_parameter", "abcpy/inferences.py:PMCABC._resample_parameter", "abcpy/inferences.py:RSMCABC._accept_parameter", "abcpy/inferences.py:SMCABC.sample", "abcpy/inferences.py:ABCsubsim._accept_parameter", "abcpy/inferences.py:APMCABC.sample"]}
{"id": "C217", "title": "Posterior means and effective sample sizes are right in floating-point arithmetic", "statement": "In Python's arithmetic, in whatever order numpy adds up, the posterior mean of a parameter differs from the weighted mean of its samples only by rounding: by at most four times the number of samples times the precision, relative to the weighted mean of absolute values; and it lies between the smallest and the largest sample. The effective sample size stored in the journal differs from the exact one by at most eight times the number of samples plus one times the precision, relatively, and lies between one and the number of particles.", "quantifier": "all samples, all weights that are not negative with positive sum, all orders of addition, all roundings with relative error u such that 8 (n + 1) u is at most one", "why_tests_cant": "Rounding errors depend on all numbers and on the order of addition, which depends on the numpy build; a test sees one build and a few numbers, and compares up to a tolerance.", "anchors": ["abcpy/output.py:Journal.posterior_mean", "abcpy/output.py:Journal.add_ESS_estimate"]}
{"id": "C218", "title": "Rounding errors do not build up in the importance weights of PMCABC", "statement": "In Python's arithmetic, as long as no number underflows or overflows, the weights that PMCABC gives to the particles it has drawn are the importance weights (prior density over the mixture of kernels around the previous particles with their weights, normalised, from the first step on) up to a relative error that grows only linearly with the number of steps and of particles, in whatever order numbers are added up.", "quantifier": "all numbers of particles and steps, all prior densities that are positive, all kernel densities that are not negative and not all zero, all orders of addition, all roundings with relative error u such that 2 (2 t + 1) (n + 3) u is at most one", "why_tests_cant": "Errors of a step enter all weights of the next step; tests run two or three steps with few particles and compare up to a tolerance.", "anchors": ["abcpy/inferences.py:PMCABC._calculate_weight", "abcpy/inferences.py:PMCABC.sample"]}
{"id": "C219", "title": "The next threshold of PMCABC has been met by a particle, in floating-point arithmetic", "statement": "When PMCABC or APMCABC computes the next threshold as a percentile of the distances in Python's arithmetic, the threshold is never below the smallest distance nor above the largest one, so at least one particle meets it already, and the thresholds of a run do not increase. If all particles have the same distance then the threshold is exactly this distance.", "quantifier": "all numbers of particles, all distances, percentiles and steps; all roundings to nearest of Rounding; interpolation of numpy from 1.20 on (for older versions the property is refuted)", "why_tests_cant": "The rounding of an interpolation misses the smallest distance by one unit in the last place for some distances and percentiles only; the run then never ends.", "anchors": ["abcpy/inferences.py:PMCABC.sample", "abcpy/inferences.py:APMCABC.sample"]}
{"id": "C220", "title": "Refused parameters do not end the drawing of training data", "statement": "If a simulator refuses some parameters of the prior, drawing pairs of parameters and simulations from the prior still returns the requested number of pairs, and statistics are still learned from the requested number of draws; refused draws are replaced", "quantifier": "all priors, simulators that refuse parameters, numbers of draws, chunk sizes, tests for too large values and generators", "why_tests_cant": "a test with a simulator that seldom refuses passes nearly always; the failure appears for large numbers of draws only, with a probability that depends on the number", "anchors": ["abcpy/inferences.py:DrawFromPrior.sample_par_sim_pairs", "abcpy/inferences.py:DrawFromPrior._sample_par_sim_pairs", "abcpy/inferences.py:DrawFromPrior._sample_parameter_simulation", "abcpy/statisticslearning.py:StatisticsLearning._sample_parameter_statistics", "abcpy/graphtools.py:GraphTools.simulate"]}
{"id": "C221", "title": "The order of the observed models does not matter", "statement": "If the observed models are handed to a sampler in another order, together with their observations, distances or likelihoods and weights, then the parameters are the same, an assignment of values to the parameters is accepted in one order exactly if it is in the other and has the same prior density, and the combined distance, its declared maximum and the combined likelihoods of the same data sets are the same", "quantifier": "all graphs in which no root is an input of a root, all orders of the roots, all values, stored states and density functions; all numbers of models, distances, weights and data sets", "why_tests_cant": "the number of orders grows with the factorial of the number of models, and shared parameters are met along different paths in each", "anchors": ["abcpy/probabilisticmodels.py:ProbabilisticModel", "abcpy/graphtools.py:GraphTools.set_parameters", "abcpy/graphtools.py:GraphTools.pdf_of_prior", "abcpy/jointdistances.py:LinearCombination", "abcpy/jointapprox_lhd.py:SumCombination", "abcpy/jointapprox_lhd.py:ProductCombination"]}
{"id": "C222", "title": "Every parameter can be looked up by its name", "statement": "After a run, journal.get_parameters() lists every parameter of the model under its name with its values in all particles, also when names were left at their defaults, and so posterior_mean, posterior_cov and the plots cover every parameter", "quantifier": "all lists of names, all populations and all parameters", "why_tests_cant": "tests name their priors; two priors of the same kind without names, or one name used twice, raise no error", "anchors": ["abcpy/output.py:Journal.add_user_parameters", "abcpy/output.py:Journal.get_parameters", "abcpy/output.py:Journal.posterior_mean", "abcpy/graphtools.py:GraphTools._get_names_and_parameters"]}
{"id": "C223", "title": "PMCABC leaves the caller's thresholds as they are", "statement": "PMCABC.sample does not change the list or array passed as epsilon_init: after the call it holds what it held before, and a second call with the same object works with the same given thresholds", "quantifier": "all models, populations, numbers of steps, percentiles and random streams, thresholds in lists or arrays", "why_tests_cant": "tests build the thresholds in the call and use them once; the change shows only when the same object is passed again", "anchors": ["abcpy/inferences.py:PMCABC.sample"]}
{"id": "C224", "title": "Thresholds given as integers work like the same numbers given as floats", "statement": "PMCABC.sample with epsilon_init an array of integers, such as np.array([3, 2, 1]), uses the same thresholds as with these numbers as floats: each is the larger one of the given one and the percentile of the distances of the step before", "quantifier": "all models, populations, numbers of steps, percentiles and random streams, all arrays of non-negative integers with one threshold for each step", "why_tests_cant": "the examples pass integer arrays of one element; cut-off decimals change thresholds without any error", "anchors": ["abcpy/inferences.py:PMCABC.sample"]}
{"id": "C225", "title": "After any restarts the journal of PMCABC can be resampled", "statement": "After a call of PMCABC.sample and any number of restarts from its journal, configuration[\"n_samples\"] is the size of every stored population, and journal.resample() draws from the whole last population, whatever was asked for in the calls", "quantifier": "all models, all sequences of calls and their arguments, all random streams, parameters with pairwise different names", "why_tests_cant": "tests resample journals of single calls; resample trusts an entry of the configuration that restarts do not update", "anchors": ["abcpy/inferences.py:PMCABC.sample", "abcpy/output.py:Journal.resample"]}
{"id": "C226", "title": "How many simulations an iteration of PMCABC needs", "statement": "In each iteration of PMCABC.sample, journal.number_of_simulations grows by the number of attempts up to the first near enough one, summed over the particles. If an attempt is near enough with probability p > 0, and perturbing ends, the iteration returns with probability one and this number has mean n_samples / p and variance n_samples (1 - p) / p ** 2; if p = 0, it never returns", "quantifier": "all models, priors, kernels, populations, thresholds and numbers of particles, almost all random streams", "why_tests_cant": "the probability that a sampler ends and the distribution of its cost are statements about all random streams", "anchors": ["abcpy/inferences.py:PMCABC._resample_parameter", "abcpy/inferences.py:PMCABC.sample"]}
{"id": "C227", "title": "The weights of APMCABC are finite numbers", "statement": "In every call of APMCABC.sample that returns, all weights in the journal are finite positive numbers; and a kernel density that is computed as zero for a proposal does not end the run", "quantifier": "all models, kernels, observations, numbers of samples and steps, all random streams, all values of the kernel densities including zero", "why_tests_cant": "kernel densities underflow only for particular models and random numbers far from all old particles", "anchors": ["abcpy/inferences.py:APMCABC._accept_parameter", "abcpy/inferences.py:APMCABC.sample"]}
{"id": "C228", "title": "Moves of SMCABC and ABCsubsim never leave the threshold, also when densities underflow", "statement": "Where SMCABC moves a particle, with any of its kernels, the particle is not replaced by one whose simulated data are all too far from the observations if its own data were near enough, whatever the prior and kernel densities are computed as, including zero; the acceptance probability is always a number that the random generator accepts. The same holds for the chains of ABCsubsim and their annealing parameter", "quantifier": "all models, kernels, thresholds, populations and random streams, all values of the prior and kernel densities including zero", "why_tests_cant": "densities underflow only for particular models, dimensions and random numbers", "anchors": ["abcpy/inferences.py:SMCABC._accept_parameter", "abcpy/inferences.py:SMCABC._accept_parameter_r_hit_kernel", "abcpy/inferences.py:SMCABC._accept_parameter_r_hit_kernel_version_2", "abcpy/inferences.py:ABCsubsim._accept_parameter"]}
{"id": "C229", "title": "SABC: the temperature follows the mean redefined distance and never stops improving moves", "statement": "The threshold (temperature) of SABC is determined by the mean redefined distance: it grows with it, is never larger than it and is not negative. In every step a proposal whose prior density is at least that of its particle and whose redefined distance is at most that of its particle is accepted", "quantifier": "all annealing parameters v that are not negative, all mean distances, all models, priors, observations, populations, random streams and numbers of steps", "why_tests_cant": "the root of the annealing equation and the acceptance of moves must be right for every real distance and every population; a test sees a few runs, and the state in which no move is accepted depends on ties between all first distances", "anchors": ["abcpy/inferences.py:SABC._schedule", "abcpy/inferences.py:SABC._accept_parameter", "abcpy/inferences.py:SABC._smoother_distance", "abcpy/inferences.py:SABC.sample"]}
{"id": "C230", "title": "Resampling of SABC prefers smaller distances and is always possible", "statement": "When SABC resamples its population, the random choice is given as many probabilities as there are particles, all positive and with sum one. A particle with a smaller redefined distance never has a smaller probability than another, so that resampling does not raise the mean redefined distance on average. After the first step some particle has weight at least exp(-delta) before normalising, so that not all weights can underflow", "quantifier": "all models, priors, observations, populations, random streams, numbers of steps and all values of delta that are not negative", "why_tests_cant": "the probabilities depend on all real distances of the population, and the effect of resampling is an average over all outcomes of the random draws; a test sees one outcome for one population", "anchors": ["abcpy/inferences.py:SABC.sample"]}
{"id": "C231", "title": "Resampling a journal keeps averages", "statement": "On average over the random draws, the mean of every function of the parameters over the unweighted journal returned by resample is its weighted mean over the journal that was resampled, with or without replacement and for every number of samples", "quantifier": "all journals with any number of particles and any weights, all functions of the parameters, all numbers of samples, with and without replacement", "why_tests_cant": "it is a statement on the average over all outcomes of the random draws for all weights; a test sees a few outcomes, each of which has another mean", "anchors": ["abcpy/output.py:Journal.resample"]}
{"id": "C232", "title": "Resampling of SMCABC keeps averages over particles and their simulations", "statement": "When SMCABC resamples its population, the average of every function of a particle's parameters and simulated data over the new population, which has equal weights, is on average over the random draws the weighted average over the population before", "quantifier": "all populations, weights, numbers of samples, functions and both versions of the algorithm", "why_tests_cant": "it is a statement on the average over all outcomes of the random draws for all weights; a test sees a few outcomes and cannot tell an average from a fluctuation", "anchors": ["abcpy/inferences.py:SMCABC.sample"]}
{"id": "C233", "title": "Particles of SMCABC that count are near the observation", "statement": "In the result of a run of SMCABC that completed more than one step, every particle of positive weight has simulated data, at least one of its data sets, nearer to the observation than the threshold of the last step", "quantifier": "all models, observations, kernels of the moves, schedules of thresholds, numbers of steps and of particles, and all outcomes of the random generator", "why_tests_cant": "it is an invariant that must survive every reweighting, resampling and move of a random run; a test sees one run, in which the effective sample size may never have fallen below the limit", "anchors": ["abcpy/inferences.py:SMCABC.sample", "abcpy/inferences.py:SMCABC._accept_parameter", "abcpy/inferences.py:SMCABC._accept_parameter_r_hit_kernel", "abcpy/inferences.py:SMCABC._accept_parameter_r_hit_kernel_version_2"]}
{"id": "C234", "title": "The smallest distance of samplers that carry particles over never increases", "statement": "RSMCABC, APMCABC and ABCsubsim go on from the best particles of a population; so over the populations of a run, in the order in which they are journalled, the smallest distance never increases", "quantifier": "all models, observations, numbers of samples and of steps, values of alpha and chain lengths, and all outcomes of the random generator, in runs that return", "why_tests_cant": "it relates all pairs of populations of every random run; a test runs one schedule of alpha and population size with one seed", "anchors": ["abcpy/inferences.py:RSMCABC.sample", "abcpy/inferences.py:APMCABC.sample", "abcpy/inferences.py:ABCsubsim.sample", "abcpy/inferences.py:ABCsubsim._accept_parameter"]}
{"id": "C235", "title": "Every particle in a journal has a positive prior density", "statement": "If draws from the prior have a prior density that is not zero, then so has every particle of every population that PMCABC, PMC, SMCABC, RSMCABC, APMCABC, SABC and ABCsubsim put in their journals", "quantifier": "all models, kernels (also kernels that propose values outside of the prior), numbers of samples and steps, schedules of the workers and outcomes of the random generator; for PMCABC and RSMCABC thresholds below the declared maximum of the distance", "why_tests_cant": "kernels with unbounded support propose values outside of the prior in some runs only; the particles must be inside in all runs and all populations", "anchors": ["abcpy/inferences.py:PMCABC._resample_parameter", "abcpy/inferences.py:SMCABC._accept_parameter", "abcpy/inferences.py:RSMCABC._accept_parameter", "abcpy/inferences.py:APMCABC._accept_parameter", "abcpy/inferences.py:SABC._accept_parameter", "abcpy/inferences.py:ABCsubsim._accept_parameter"]}
{"id": "C236", "title": "Uniform accepts its bounds exactly if some value is valid", "statement": "Uniform accepts lower and upper bounds exactly if there is a value that it accepts as its output with these bounds; with accepted bounds every draw is accepted as output, and with refused bounds no value is", "quantifier": "all dimensions, all real bounds and all numbers the generator can return", "why_tests_cant": "the bounds may be drawn from other models, so they range over all reals, and equal bounds in one of many coordinates are met only by chance", "anchors": ["abcpy/continuousmodels.py:Uniform._check_input", "abcpy/continuousmodels.py:Uniform._check_output", "abcpy/continuousmodels.py:Uniform.forward_simulate"]}
