{
 "claims": [
  {
   "property": "C01",
   "status": "proved",
   "theorems": [
    "Verif.Graph.C01_set_then_get",
    "Verif.Graph.C01_nested_roots_violated"
   ],
   "note": "Proved for all graphs in which no root is an input of a root; the second theorem shows that this condition is needed."
  },
  {
   "property": "C02",
   "status": "proved",
   "theorems": [
    "Verif.Graph.C02_orders_agree"
   ],
   "note": ""
  },
  {
   "property": "C03",
   "status": "proved",
   "theorems": [
    "Verif.Graph.C03_no_residue",
    "Verif.Graph.C03_after_exception_violated"
   ],
   "note": "Any history of calls that return. The second theorem shows that marks stay behind when set_parameters raises (vector too short)."
  },
  {
   "property": "C04",
   "status": "proved",
   "theorems": [
    "Verif.Graph.C04_prior_draws",
    "Verif.Graph.C04_values"
   ],
   "note": ""
  },
  {
   "property": "C05",
   "status": "partial",
   "theorems": [
    "Verif.Graph.C05_rejected_leaves_values_violated",
    "Verif.Graph.C05_rejected_leaves_values_partial"
   ],
   "note": "The code violates the property: the entries before the rejected one are stored. The partial theorem says exactly what is stored."
  },
  {
   "property": "C06",
   "status": "partial",
   "theorems": [
    "Verif.Graph.C06_acceptance_history_violated",
    "Verif.Graph.C06_exact",
    "Verif.Graph.C06_earlier_partial",
    "Verif.Graph.C06_acceptance_partial"
   ],
   "note": "The code violates the property for priors whose support depends on a parameter that comes later in the order. C06_exact says for every vector and every history when the code accepts; the partial theorems cover checks that read only parameters earlier in the order, or no stored value."
  },
  {
   "property": "C07",
   "status": "partial",
   "theorems": [
    "Verif.Graph.C07_prior_density_partial",
    "Verif.Graph.C07_shared_discrete_violated"
   ],
   "note": "The code violates the property when a discrete parameter is reached along two paths. The partial theorem covers all other graphs."
  },
  {
   "property": "C08",
   "status": "partial",
   "theorems": [
    "Verif.Graph.C08_density_changes_values_violated",
    "Verif.Graph.C08_density_changes_values_partial"
   ],
   "note": "The code violates the property: pdf_of_prior stores its argument. The partial theorem says what is stored."
  },
  {
   "property": "C09",
   "status": "proved",
   "theorems": [
    "Verif.Graph.C09_ordering",
    "Verif.Graph.C09_ordering_perm"
   ],
   "note": ""
  },
  {
   "property": "C10",
   "status": "proved",
   "theorems": [
    "Verif.Kernel.C10_kernel_values_arrive"
   ],
   "note": "For every joint kernel built over free parameters; kernels' own updates are arbitrary functions."
  },
  {
   "property": "C11",
   "status": "proved",
   "theorems": [
    "Verif.Graph.C11_columns"
   ],
   "note": ""
  },
  {
   "property": "C12",
   "status": "proved",
   "theorems": [
    "Verif.Models.C12_flatten",
    "Verif.Models.C12_values_model",
    "Verif.Models.C12_values_append"
   ],
   "note": ""
  },
  {
   "property": "C13",
   "status": "partial",
   "theorems": [
    "Verif.Models.C13_index_partial",
    "Verif.Models.C13_negative_violated"
   ],
   "note": "Non-negative indices proved; negative indices are accepted by the code."
  },
  {
   "property": "C14",
   "status": "partial",
   "theorems": [
    "Verif.Models.C14_operations_partial",
    "Verif.Models.C14_fresh_violated",
    "Verif.Models.C14_dimension_violated",
    "Verif.Models.C14_rpow_violated"
   ],
   "note": "Operation proved on the freshly drawn operand samples in dimension one; false for stored values, dimension two and more, and number ** model."
  },
  {
   "property": "C15",
   "status": "partial",
   "theorems": [
    "Verif.Models.C15_store_partial",
    "Verif.Models.C15_uniform",
    "Verif.Models.C15_store_violated",
    "Verif.Models.C15_support"
   ],
   "note": "Proved when the draw passes the output check; otherwise success is reported without storing."
  },
  {
   "property": "C16",
   "status": "partial",
   "theorems": [
    "Verif.Models.C16_discrete_uniform",
    "Verif.Models.C16_bernoulli",
    "Verif.Models.C16_binomial_partial",
    "Verif.Models.C16_binomial_violated"
   ],
   "note": "Proved for all three except Binomial(n,0) at negative points, where an exception is raised."
  },
  {
   "property": "C17",
   "status": "proved",
   "theorems": [
    "Verif.Mpi.C17_map_sequential"
   ],
   "note": "Every interleaving; MPI itself is assumed reliable."
  },
  {
   "property": "C18",
   "status": "proved",
   "theorems": [
    "Verif.Mpi.C18_distribution",
    "Verif.Mpi.C18_ends"
   ],
   "note": "Step bound, exactly-once hand-out, no deadlock, every interleaving, for functions whose exceptions can be rebuilt (otherwise see C19)."
  },
  {
   "property": "C19",
   "status": "partial",
   "theorems": [
    "Verif.Mpi.C19_exceptions_partial",
    "Verif.Mpi.C19_unbuildable_exception_violated"
   ],
   "note": "An exception class that cannot be rebuilt from one string kills a leader and deadlocks the scheduler."
  },
  {
   "property": "C20",
   "status": "proved",
   "theorems": [
    "Verif.Mpi.C20_isolation",
    "Verif.Mpi.C20_contents_persist"
   ],
   "note": "Refinement of an id-free specification over every program of calls."
  },
  {
   "property": "C21",
   "status": "partial",
   "theorems": [
    "Verif.Mpi.C21_chunks_partial",
    "Verif.Mpi.C21_chunks_violated"
   ],
   "note": "False for every chunk size of two or more: the scheduler resends the growing chunk or pops from an empty list."
  },
  {
   "property": "C22",
   "status": "partial",
   "theorems": [
    "Verif.Mpi.C22_teams",
    "Verif.Mpi.C22_roles_partial",
    "Verif.Mpi.C22_scheduler_not_zero_violated",
    "Verif.Mpi.C22_two_schedulers_violated"
   ],
   "note": "Teams for all scheduler lists; roles only for the scheduler list [0], false for others."
  },
  {
   "property": "C23",
   "status": "partial",
   "theorems": [
    "Verif.Mpi.C23_backends_agree_partial",
    "Verif.Mpi.C23_collect_source_violated",
    "Verif.Mpi.C23_map_of_map_violated"
   ],
   "note": "Agrees for parallelize-map-collect pipelines; collecting a source or mapping a map result breaks under MPI."
  },
  {
   "property": "C24",
   "status": "proved",
   "theorems": [
    "Verif.Kernel.C24_check_kernels"
   ],
   "note": ""
  },
  {
   "property": "C25",
   "status": "proved",
   "theorems": [
    "Verif.Kernel.C25_joint_pdf"
   ],
   "note": ""
  },
  {
   "property": "C26",
   "status": "proved",
   "theorems": [
    "Verif.Kernel.C26_blocks"
   ],
   "note": ""
  },
  {
   "property": "C27",
   "status": "partial",
   "theorems": [
    "Verif.Kernel.C27_random_walk_partial",
    "Verif.Kernel.C27_random_walk_violated"
   ],
   "note": "Support proved for all dimensions; the pmf sums to (2j+1)^(d-1), so to one only for one component."
  },
  {
   "property": "C28",
   "status": "proved",
   "theorems": [
    "Verif.Kernel.C28_default_kernel"
   ],
   "note": ""
  },
  {
   "property": "C29",
   "status": "partial",
   "theorems": [
    "Verif.Kernel.C29_perturb_partial",
    "Verif.Kernel.C29_exhausted",
    "Verif.Kernel.C29_exhausted_violated",
    "Verif.Kernel.C29_eleventh_violated"
   ],
   "note": "Proved when the first acceptable proposal is within the limit and not the eleventh; false for exhaustion with any limit other than 10 (C29_exhausted) and for acceptance at the eleventh attempt."
  },
  {
   "property": "C30",
   "status": "proved",
   "theorems": [
    "Verif.Journal.C30_history"
   ],
   "note": ""
  },
  {
   "property": "C31",
   "status": "proved",
   "theorems": [
    "Verif.Journal.C31_ess"
   ],
   "note": ""
  },
  {
   "property": "C32",
   "status": "partial",
   "theorems": [
    "Verif.Journal.C32_average",
    "Verif.Journal.C32_posterior_mean_partial",
    "Verif.Journal.C32_single_violated"
   ],
   "note": "Holds for entries with two or more particles, for parameters with any number of components. Violated for one particle: squeeze removes the dimension of the particles and posterior_mean raises."
  },
  {
   "property": "C33",
   "status": "partial",
   "theorems": [
    "Verif.Journal.C33_resample_partial",
    "Verif.Journal.C33_names_violated",
    "Verif.Journal.C33_sizes"
   ],
   "note": "Proved for pairwise different parameter names; for repeated names the negation is proved."
  },
  {
   "property": "C34",
   "status": "partial",
   "theorems": [
    "Verif.Rejection.C34_sample",
    "Verif.Rejection.C34_pairs_partial",
    "Verif.Rejection.C34_pairs_violated"
   ],
   "note": "Complete for sample; for pairs with n = 0 the code raises an exception (proved)."
  },
  {
   "property": "C35",
   "status": "partial",
   "theorems": [
    "Verif.Rejection.C35_seeds_partial",
    "Verif.Rejection.C35_seeds_violated"
   ],
   "note": "Exact characterisation of the arrays for which the seeds differ; others give equal seeds."
  },
  {
   "property": "C36",
   "status": "proved",
   "theorems": [
    "Verif.Rejection.C36_task",
    "Verif.Rejection.C36_round"
   ],
   "note": ""
  },
  {
   "property": "C37",
   "status": "proved",
   "theorems": [
    "Verif.Rejection.C37_arguments"
   ],
   "note": ""
  },
  {
   "property": "C38",
   "status": "partial",
   "theorems": [
    "Verif.Rejection.C38_cleanup_partial",
    "Verif.Rejection.C38_config_violated"
   ],
   "note": "The selection is proved; the model types are lost, so bootstrapping the journal raises an exception (proved)."
  },
  {
   "property": "C39",
   "status": "proved",
   "theorems": [
    "Verif.Pmc.C39_thresholds",
    "Verif.Pmc.C39_refused",
    "Verif.Pmc.C39_given"
   ],
   "note": ""
  },
  {
   "property": "C40",
   "status": "proved",
   "theorems": [
    "Verif.Pmc.C40_weights"
   ],
   "note": ""
  },
  {
   "property": "C41",
   "status": "partial",
   "theorems": [
    "Verif.Pmc.C41_weights_partial",
    "Verif.Pmc.C41_weights_violated",
    "Verif.Pmc.pmcWeights_eq"
   ],
   "note": "The code uses the prior density twice; proved for constant prior density, and the negation otherwise."
  },
  {
   "property": "C42",
   "status": "proved",
   "theorems": [
    "Verif.Smc.C42_thresholds",
    "Verif.Smc.C42_never_reached"
   ],
   "note": "exact arithmetic; a fresh sampler, no journal file"
  },
  {
   "property": "C43",
   "status": "proved",
   "theorems": [
    "Verif.Smc.C43_bisection"
   ],
   "note": ""
  },
  {
   "property": "C44",
   "status": "proved",
   "theorems": [
    "Verif.Smc.C44_weights"
   ],
   "note": ""
  },
  {
   "property": "C45",
   "status": "partial",
   "theorems": [
    "Verif.Smc.C45_distances",
    "Verif.Smc.C45_simulations_partial",
    "Verif.Smc.C45_simulations_violated"
   ],
   "note": "false for runs that resample: simulations are not resampled with the parameters"
  },
  {
   "property": "C46",
   "status": "partial",
   "theorems": [
    "Verif.Smc.C46_smc_partial",
    "Verif.Subsim.C46_subsim",
    "Verif.Rsmc.C46_rsmc_violated",
    "Verif.Rsmc.C46_rsmc_run_violated",
    "Verif.Apmc.C46_apmc_partial",
    "Verif.Apmc.C46_apmc_violated",
    "Verif.Sabc.C46_sabc_partial",
    "Verif.Sabc.C46_sabc_violated"
   ],
   "note": "Proved for SMCABC (exact arithmetic) and ABCsubsim. Violated: RSMCABC raises TypeError in the call that logs the stop; APMCABC returns an empty journal when it stops early with full_output=0; SABC drops the population of the step in which it stops. The partial theorems say when APMCABC and SABC keep it."
  },
  {
   "property": "C47",
   "status": "partial",
   "theorems": [
    "Verif.Rsmc.C47_rejected_partial",
    "Verif.Rsmc.C47_value_violated",
    "Verif.Rsmc.C47_distance_violated",
    "Verif.Rsmc.C47_no_new_values_violated"
   ],
   "note": "Rejected moves and the distances are as claimed. Violated for all models: the value returned is always the old one, because the prior density of the old value is evaluated last and leaves it in the graph; no new value ever enters the population."
  },
  {
   "property": "C48",
   "status": "proved",
   "theorems": [
    "Verif.Rsmc.C48_thresholds",
    "Verif.Rsmc.C48_no_moves_raises"
   ],
   "note": "For runs that end, 0 < const <= 1."
  },
  {
   "property": "C49",
   "status": "partial",
   "theorems": [
    "Verif.Apmc.C49_partial",
    "Verif.Apmc.C49_size_violated"
   ],
   "note": "All but the population size; it is n_samples iff exactly round(n alpha) particles lie strictly below the threshold."
  },
  {
   "property": "C50",
   "status": "partial",
   "theorems": [
    "Verif.Subsim.C50_partial",
    "Verif.Subsim.C50_size_violated"
   ],
   "note": "Violated for every chain length that does not divide n_samples (fewer particles, and more weights than particles)."
  },
  {
   "property": "C51",
   "status": "partial",
   "theorems": [
    "Verif.Sabc.C51_smooth_partial",
    "Verif.Sabc.C51_population",
    "Verif.Sabc.C51_monotone_violated"
   ],
   "note": "Range and population size proved; the map jumps down to 0 at the smallest reference distance, so it is not monotone."
  },
  {
   "property": "C52",
   "status": "partial",
   "theorems": [
    "Verif.Mcmc.C52_chain_partial",
    "Verif.Mcmc.C52_states",
    "Verif.Mcmc.C52_one_bounded_violated"
   ],
   "note": "Proved for every call that returns. With bounds and exactly one parameter every call raises IndexError."
  },
  {
   "property": "C53",
   "status": "proved",
   "theorems": [
    "Verif.Mcmc.C53_balance",
    "Verif.Mcmc.C53_invariant",
    "Verif.Mcmc.C53_pseudo_marginal",
    "Verif.Mcmc.C53_bounded"
   ],
   "note": "Detailed balance, invariance of the target under one step, the version with estimated likelihoods, and that the Jacobian used is the derivative of the transformation (two or more parameters)."
  },
  {
   "property": "C54",
   "status": "proved",
   "theorems": [
    "Verif.Mcmc.C54_restarts",
    "Verif.Mcmc.C54_resume",
    "Verif.Mcmc.C54_transformers"
   ],
   "note": "Every restart asks for at least one state. Also: an interrupted and resumed run gives the chain of the uninterrupted run."
  },
  {
   "property": "C55",
   "status": "partial",
   "theorems": [
    "Verif.Transform.C55_partial",
    "Verif.Transform.C55_constructor",
    "Verif.Transform.C55_single_violated",
    "Verif.Transform.C55_integers_violated",
    "Verif.Transform.C55_rounding_violated"
   ],
   "note": "Violated for exactly one variable (IndexError), for vectors of integers (results are cut to integers) and for bounds that are not single precision numbers."
  },
  {
   "property": "C56",
   "status": "partial",
   "theorems": [
    "Verif.Transform.C56_partial",
    "Verif.Transform.C56_inverse",
    "Verif.Transform.C56_integers_violated"
   ],
   "note": "Violated for vectors of integers. jac_log_det_inverse_transform is exact below 100 in absolute value and within exp(-100) per variable otherwise."
  },
  {
   "property": "C57",
   "status": "partial",
   "theorems": [
    "Verif.Distance.C57_new",
    "Verif.Distance.C57_partial",
    "Verif.Distance.C57_inplace_violated",
    "Verif.Distance.C57_broadcast_violated",
    "Verif.Distance.C57_sizes_violated"
   ],
   "note": "Holds for every history in which the caller leaves observed data unchanged and compared data sets have comparable shapes. Violated after a change in place, for data that numpy compares by broadcasting, and for data sets of different sizes."
  },
  {
   "property": "C58",
   "status": "partial",
   "theorems": [
    "Verif.Joint.C58_mean",
    "Verif.Joint.C58_unweighted",
    "Verif.Joint.C58_max_partial",
    "Verif.Joint.C58_zero_weight_violated",
    "Verif.Joint.C58_errors"
   ],
   "note": "Convexity and the maximum hold; with a zero weight and an infinite maximum the declared maximum is not a number."
  },
  {
   "property": "C59",
   "status": "proved",
   "theorems": [
    "Verif.Distance.C59",
    "Verif.Distance.C59_mean",
    "Verif.Distance.C59_exists"
   ],
   "note": ""
  },
  {
   "property": "C60",
   "status": "partial",
   "theorems": [
    "Verif.Distance.C60_biased_partial",
    "Verif.Distance.C60_value",
    "Verif.Distance.C60_symmetric",
    "Verif.Distance.C60_equal",
    "Verif.Distance.C60_gaussian_kernel",
    "Verif.Distance.C60_gaussian",
    "Verif.Distance.C60_energy",
    "Verif.Distance.C60_energy_powers",
    "Verif.Distance.C60_unbiased_negative",
    "Verif.Distance.C60_callable_violated",
    "Verif.Distance.C60_hellinger_violated",
    "Verif.Distance.C60_transport",
    "Verif.Distance.C60_divergences_negative"
   ],
   "note": "MMD and energy distance proved (Gaussian kernel positive definite, powers of the distance of negative type). The flag is wrong for the Hellinger estimate and for callable kernels that are not symmetric."
  },
  {
   "property": "C61",
   "status": "proved",
   "theorems": [
    "Verif.Joint.C61",
    "Verif.Joint.C61_errors"
   ],
   "note": ""
  },
  {
   "property": "C62",
   "status": "proved",
   "theorems": [
    "Verif.Statistics.C62"
   ],
   "note": ""
  },
  {
   "property": "C63",
   "status": "partial",
   "theorems": [
    "Verif.LogReg.C63_cover",
    "Verif.LogReg.C63_partial",
    "Verif.LogReg.C63_violated",
    "Verif.LogReg.C63_partition"
   ],
   "note": "Every sample gets exactly one fold. Sizes differ by at most one exactly when n is at most the number of folds, or the number of folds divides n or n + 1; for n = 11 they do not (violated)."
  },
  {
   "property": "C64",
   "status": "partial",
   "theorems": [
    "Verif.Memo.C64_partial",
    "Verif.Memo.C64_evaluated",
    "Verif.Memo.C64_violated"
   ],
   "note": "The cached function agrees with the function for argument lists whose equality is identity; keys that compare equal but are different arguments (1 and True) share an entry (violated)."
  },
  {
   "property": "C65",
   "status": "partial",
   "theorems": [
    "Verif.Learning.C65_partial",
    "Verif.Learning.C65_sizes",
    "Verif.Learning.C65_succeeds",
    "Verif.Learning.C65_violated",
    "Verif.Learning.C65_one_violated"
   ],
   "note": "Alignment is proved for one data set per parameter with any statistics and for any number of data sets with plain statistics; sizes and provided sets in all cases. Violated for several data sets per parameter with polynomial expansion, and for a single sample."
  },
  {
   "property": "C66",
   "status": "proved",
   "theorems": [
    "Verif.Nn.C66",
    "Verif.Nn.C66_pairs",
    "Verif.Nn.C66_similarity"
   ],
   "note": ""
  },
  {
   "property": "C67",
   "status": "partial",
   "theorems": [
    "Verif.Nn.C67_partial",
    "Verif.Nn.C67_violated"
   ],
   "note": "When training stops and what the lists of losses hold is proved for all histories. The weights are those of the last epoch, not of the previous check (violated): the saved dictionary refers to the live weights."
  },
  {
   "property": "C68",
   "status": "partial",
   "theorems": [
    "Verif.Nn.C68_partial",
    "Verif.Nn.C68_cuda",
    "Verif.Nn.C68_violated",
    "Verif.Nn.C68_dictionary_violated",
    "Verif.Nn.C68_given",
    "Verif.Nn.C68_exact"
   ],
   "note": "Violated for calls without GPU and without dictionary: they use the options of the last call before that ran on the GPU without dictionary (C68_exact, for all programs). True of all other calls (C68_partial, C68_given, C68_cuda)."
  },
  {
   "property": "C69",
   "status": "proved",
   "theorems": [
    "Verif.Wasserstein.C69",
    "Verif.Wasserstein.C69_scale"
   ],
   "note": ""
  },
  {
   "property": "C70",
   "status": "partial",
   "theorems": [
    "Verif.Selection.C70_partial",
    "Verif.Selection.C70_violated",
    "Verif.Selection.C70_distributed_violated",
    "Verif.Selection.C70_vector_violated"
   ],
   "note": "Proved for one process, distinct models and scalar data. Violated: later calls use the table of the first call; with results from other processes every label is zero; vector data raise."
  },
  {
   "property": "C71",
   "status": "partial",
   "theorems": [
    "Verif.Journal.C71_generate_partial",
    "Verif.Journal.C71_roots_violated",
    "Verif.Journal.C71_discard_violated",
    "Verif.Journal.C71_refused_violated"
   ],
   "note": "Proved for one root, accepted particles and no discarding. Violated: with several roots the final reshape always raises; discarding raises an exception; a refused particle is simulated at stale values (all proved)."
  },
  {
   "property": "C72",
   "status": "partial",
   "theorems": [
    "Verif.Models.C72_exact",
    "Verif.Models.C72_simulate_at_parameters_partial",
    "Verif.Models.C72_stale_violated",
    "Verif.Models.C72_arithmetic_violated"
   ],
   "note": "C72_exact says for every graph with which values simulators are run. The property holds exactly if the arithmetic nodes among their inputs already store the values that follow from the vector; set_parameters does not update them."
  },
  {
   "property": "C73",
   "status": "proved",
   "theorems": [
    "Verif.Models.C73_uniform_support",
    "Verif.Models.C73_uniform_normalised"
   ],
   "note": ""
  },
  {
   "property": "C74",
   "status": "partial",
   "theorems": [
    "Verif.Models.C74_student_violated",
    "Verif.Models.C74_student_density_partial"
   ],
   "note": "The code violates it for Student-t priors, whose density subtracts the mean from its argument in place."
  },
  {
   "property": "C75",
   "status": "partial",
   "theorems": [
    "Verif.Rejection.C75_budget_partial",
    "Verif.Rejection.C75_finite_violated"
   ],
   "note": "Proved for distances with infinite maximum; with finite maximum every task raises an exception."
  },
  {
   "property": "C76",
   "status": "partial",
   "theorems": [
    "Verif.Rejection.C76_number_partial",
    "Verif.Rejection.C76_number_violated"
   ],
   "note": "Proved for 2 to 46340 samples; all other numbers raise an exception."
  },
  {
   "property": "C77",
   "status": "partial",
   "theorems": [
    "Verif.Pmc.C77_partial",
    "Verif.Pmc.C77_ignores_prior_violated",
    "Verif.Pmc.C77_second_run_violated"
   ],
   "note": "Proved: earlier calls act on the populations only through the population they left; the counter is carried on. Violated: a second call perturbs the population left by the first instead of sampling from the prior."
  },
  {
   "property": "C78",
   "status": "proved",
   "theorems": [
    "Verif.Smc.C78_detailed_balance",
    "Verif.Smc.prob0_eq",
    "Verif.Smc.accept0_spec"
   ],
   "note": "For proposals that are not refused; see C95."
  },
  {
   "property": "C79",
   "status": "proved",
   "theorems": [
    "Verif.Sabc.C79_own_distances"
   ],
   "note": ""
  },
  {
   "property": "C80",
   "status": "proved",
   "theorems": [
    "Verif.Transform.C80_bijection",
    "Verif.Transform.C80_range"
   ],
   "note": "Bounds that are single precision numbers."
  },
  {
   "property": "C81",
   "status": "proved",
   "theorems": [
    "Verif.Mcmc.C81_bounds"
   ],
   "note": "Parameters with different names."
  },
  {
   "property": "C82",
   "status": "proved",
   "theorems": [
    "Verif.Distance.C82_neighbour",
    "Verif.Distance.C82_order",
    "Verif.Distance.C82_units",
    "Verif.Distance.C82_units_gamma",
    "Verif.Distance.C82_transport"
   ],
   "note": ""
  },
  {
   "property": "C83",
   "status": "proved",
   "theorems": [
    "Verif.Distance.C83_hellinger",
    "Verif.LogReg.C83_logreg",
    "Verif.LogReg.C83_penlogreg"
   ],
   "note": ""
  },
  {
   "property": "C84",
   "status": "proved",
   "theorems": [
    "Verif.Statistics.C84",
    "Verif.Statistics.C84_ragged",
    "Verif.Statistics.C84_rescale"
   ],
   "note": ""
  },
  {
   "property": "C85",
   "status": "partial",
   "theorems": [
    "Verif.LogReg.C85_partial",
    "Verif.LogReg.C85_violated",
    "Verif.LogReg.C85_squeeze_violated"
   ],
   "note": "Proved: with at least two rows and two columns the table has the requested number of rows, every row is simulated, and the training set labels simulations 0 and reference rows 1. Violated: the prior is sampled once and all rows are simulated at that draw; a single row or column is squeezed away and every later use fails."
  },
  {
   "property": "C86",
   "status": "proved",
   "theorems": [
    "Verif.Likelihood.C86_synthetic",
    "Verif.Likelihood.C86_semiparametric",
    "Verif.LogReg.C86_classifier"
   ],
   "note": ""
  },
  {
   "property": "C87",
   "status": "proved",
   "theorems": [
    "Verif.Wasserstein.C87",
    "Verif.Wasserstein.C87_sliced",
    "Verif.Wasserstein.C87_convergence"
   ],
   "note": ""
  },
  {
   "property": "C88",
   "status": "proved",
   "theorems": [
    "Verif.Learning.C88"
   ],
   "note": ""
  },
  {
   "property": "C89",
   "status": "partial",
   "theorems": [
    "Verif.Nn.C89_partial",
    "Verif.Nn.C66_similarity",
    "Verif.Nn.C89_violated"
   ],
   "note": "Proved when no two samples have the same parameters. Violated: when the quantile of the distances is zero, as with repeated parameters, an empty matrix is accepted and no triplet is ever found."
  },
  {
   "property": "C90",
   "status": "proved",
   "theorems": [
    "Verif.Likelihood.C90"
   ],
   "note": ""
  },
  {
   "property": "C91",
   "status": "partial",
   "theorems": [
    "Verif.Likelihood.C91_partial",
    "Verif.Likelihood.C91_violated",
    "Verif.Likelihood.C91_single",
    "Verif.Likelihood.C91_ties"
   ],
   "note": "Without ties, for two or more simulations, everything is proved; with ties all but the diagonal and the bounds (C91_ties); the diagonal is then not one (violated)."
  },
  {
   "property": "C92",
   "status": "proved",
   "theorems": [
    "Verif.Smc.C92_run",
    "Verif.Smc.C92_particle"
   ],
   "note": "The specification is Verif/Smc/Spec.lean."
  },
  {
   "property": "C93",
   "status": "partial",
   "theorems": [
    "Verif.Smc.C93_partial",
    "Verif.Smc.C93_one_violated",
    "Verif.Smc.C93_division_violated"
   ],
   "note": "Proved for r at least 2 and for the default. Violated for r = 1: version 2 always raises, version 1 divides by zero or never moves."
  },
  {
   "property": "C94",
   "status": "proved",
   "theorems": [
    "Verif.Smc.C94_hit_kernel",
    "Verif.Smc.C94_hit_kernel_two",
    "Verif.Smc.hitLoop_waiting",
    "Verif.Smc.C92_particle"
   ],
   "note": "For proposals that are not refused; see C95."
  },
  {
   "property": "C95",
   "status": "partial",
   "theorems": [
    "Verif.Smc.C95_partial",
    "Verif.Smc.C95_violated",
    "Verif.Smc.propose_limit",
    "Verif.Smc.C95_exact",
    "Verif.Smc.C95_even"
   ],
   "note": "Violated: balanced exactly if the refusal probabilities of both states agree or nothing flows. What the moves do leave invariant, for all models and proposal laws with densities, is the target times the probability that a proposal is not refused (C95_exact); it is the target itself if that probability is the same everywhere (C95_even)."
  },
  {
   "property": "C96",
   "status": "partial",
   "theorems": [
    "Verif.Smc.C96_partial",
    "Verif.Smc.C96_violated"
   ],
   "note": "Proved when the effective sample size falls below the fraction alpha before epsilon_final. Violated otherwise: the threshold then goes down by at most 0.001 instead of to epsilon_final."
  },
  {
   "property": "C97",
   "status": "partial",
   "theorems": [
    "Verif.Pmc.C97_partial",
    "Verif.Pmc.C97_violated",
    "Verif.Pmc.proposeLoop_eq",
    "Verif.Pmc.C97_bounds_partial"
   ],
   "note": "Proved when refusals are equally likely from all particles. Violated in a two-point model. In general weight times density is the prior density up to a factor between 1/(1-z0) and 1/(1-z1), if z0 and z1 bound the probabilities of refusals."
  },
  {
   "property": "C98",
   "status": "proved",
   "theorems": [
    "Verif.Rsmc.C98_run",
    "Verif.Rsmc.prob_eq",
    "Verif.Rsmc.nextMoves_iff"
   ],
   "note": "the exception of C47 (accepted values not taken over) is written into the specification"
  },
  {
   "property": "C99",
   "status": "partial",
   "theorems": [
    "Verif.Rsmc.C99_partial",
    "Verif.Rsmc.C99_violated",
    "Verif.Rsmc.C99_example_violated"
   ],
   "note": "violated: the logarithm is rounded down, so particles stay with probability at least const; one more attempt would suffice"
  },
  {
   "property": "C100",
   "status": "proved",
   "theorems": [
    "Verif.Apmc.C100_run"
   ],
   "note": ""
  },
  {
   "property": "C101",
   "status": "partial",
   "theorems": [
    "Verif.Apmc.C101_partial",
    "Verif.Apmc.C101_violated",
    "Verif.Apmc.C101_run_violated"
   ],
   "note": "violated: kept weights are normalised to sum one, weights of new particles are not"
  },
  {
   "property": "C102",
   "status": "proved",
   "theorems": [
    "Verif.Sabc.C102_run"
   ],
   "note": "Refinement of the model to the relational specification in Sabc/Spec."
  },
  {
   "property": "C103",
   "status": "partial",
   "theorems": [
    "Verif.Sabc.C103_partial",
    "Verif.Sabc.C103_violated",
    "Verif.Sabc.acceptance_eq",
    "Verif.Sabc.C103_exact"
   ],
   "note": "Holds exactly when the kernel is symmetric; the kernel ratio is missing from the acceptance probability. With symmetric kernels and refused proposals, moves leave invariant the target times the probability that a proposal is not refused (C103_exact)."
  },
  {
   "property": "C104",
   "status": "proved",
   "theorems": [
    "Verif.Subsim.C104_run"
   ],
   "note": "Refinement to Subsim/Spec. The specification records that proposals start from the first population and that the list of matrices is repeated; C105 and C106 say why this is wrong."
  },
  {
   "property": "C105",
   "status": "partial",
   "theorems": [
    "Verif.Subsim.C105_partial",
    "Verif.Subsim.C105_violated",
    "Verif.Subsim.C105_base",
    "Verif.Subsim.C105_flow",
    "Verif.Subsim.C105_exact"
   ],
   "note": "Violated: all proposals of chain i are made from particle i of the first population, but the acceptance probability is that of proposals from the current state. With symmetric kernels chains of any length leave invariant the restricted prior times the density of the proposals from that particle (C105_exact)."
  },
  {
   "property": "C106",
   "status": "partial",
   "theorems": [
    "Verif.Subsim.C106_partial",
    "Verif.Subsim.C106_violated"
   ],
   "note": "Violated: doubling multiplies a list, so step k has 2^k times as many matrices."
  },
  {
   "property": "C107",
   "status": "partial",
   "theorems": [
    "Verif.Subsim.C107_partial",
    "Verif.Subsim.C107_violated",
    "Verif.Subsim.C107_short_violated"
   ],
   "note": "Violated: the rates are measured with the old matrices and divided by ten whatever the chain length."
  },
  {
   "property": "C108",
   "status": "partial",
   "theorems": [
    "Verif.Subsim.C108_partial",
    "Verif.Subsim.C108_violated"
   ],
   "note": "Violated: particles that start a chain get a new distance that is not compared with the annealing parameter."
  },
  {
   "property": "C109",
   "status": "partial",
   "theorems": [
    "Verif.Subsim.C109_partial",
    "Verif.Subsim.C109_violated",
    "Verif.Subsim.C109_crash"
   ],
   "note": "Violated: one particle too many is below; chain length one raises an IndexError."
  },
  {
   "property": "C110",
   "status": "proved",
   "theorems": [
    "Verif.Pmc.C110_run",
    "Verif.Pmc.easy_run"
   ],
   "note": "Refinement of the run to the History of Pmc/Spec.lean. If the threshold is not below the maximal distance the specification says what the code does: values held by the model are taken without a simulation (see C39/C40)."
  },
  {
   "property": "C111",
   "status": "proved",
   "theorems": [
    "Verif.Pmc.C111_first",
    "Verif.Pmc.C111_restart",
    "Verif.Pmc.C111_uninterrupted",
    "Verif.Pmc.easy_restart"
   ],
   "note": "First call and restart; C111_restart applies again to the journal it yields. The number of samples must be the same (otherwise the code raises)."
  },
  {
   "property": "C112",
   "status": "partial",
   "theorems": [
    "Verif.Pmc.C112_partial",
    "Verif.Pmc.C112_violated"
   ],
   "note": "Holds for restarts by the same sampler object; a new sampler starts counting from zero."
  },
  {
   "property": "C113",
   "status": "partial",
   "theorems": [
    "Verif.Pmc.C113_partial",
    "Verif.Pmc.C113_violated",
    "Verif.Pmc.C113_exact",
    "Verif.Pmc.C113_one_partial",
    "Verif.Pmc.C113_arrays_violated"
   ],
   "note": "Holds for calls without journal file and for restarts with one step; what the list is after any restart (C113_exact): a restart with k steps appends k times k entries. If the journal was written with the thresholds in an array, a restart adds its thresholds to those in the array instead, or raises (C113_arrays_violated)."
  },
  {
   "property": "C114",
   "status": "partial",
   "theorems": [
    "Verif.Pmc.C114_partial",
    "Verif.Pmc.C114_end",
    "Verif.Pmc.C114_torn_violated",
    "Verif.Pmc.C114_short_violated"
   ],
   "note": "With full output every file that can be read holds the completed steps, and when the call returns the file holds the returned journal. Fails because save empties the file first, and without full output because populations are stored in the last step only."
  },
  {
   "property": "C115",
   "status": "partial",
   "theorems": [
    "Verif.PmcLik.C115_partial",
    "Verif.PmcLik.C115_flat",
    "Verif.PmcLik.C115_violated"
   ],
   "note": "Violated: the weights of the code count the prior density twice (C115_violated, see C41); proved with the weights that the code uses, and for priors of constant density with those of the algorithm."
  },
  {
   "property": "C116",
   "status": "proved",
   "theorems": [
    "Verif.PmcLik.C116"
   ],
   "note": ""
  },
  {
   "property": "C117",
   "status": "partial",
   "theorems": [
    "Verif.PmcLik.C117_partial",
    "Verif.PmcLik.C117_violated"
   ],
   "note": "Two or more initial points raise an exception (`iniPoints == None` on an array); one point with one parameter works."
  },
  {
   "property": "C118",
   "status": "proved",
   "theorems": [
    "Verif.Smc.C118",
    "Verif.Smc.C118_refused"
   ],
   "note": ""
  },
  {
   "property": "C119",
   "status": "partial",
   "theorems": [
    "Verif.Rsmc.C119_rsmc_violated",
    "Verif.Rsmc.C119_rsmc_run_violated",
    "Verif.Rsmc.C119_rsmc_raises_violated",
    "Verif.Apmc.C119_apmc_violated",
    "Verif.Apmc.C119_apmc_partial",
    "Verif.Sabc.C119_sabc_violated",
    "Verif.Sabc.C119_sabc_used_violated",
    "Verif.Sabc.C119_sabc_zero_violated",
    "Verif.Subsim.C119_subsim_violated",
    "Verif.Pmc.C119_pmcabc_violated"
   ],
   "note": "Holds for PMCABC with thresholds in lists (C111), PMC (C116), SMCABC (C118) and MCMC (C54). PMCABC given one threshold for each step in an array, the documented type, raises on restarts with another number of steps than before, unless this is one. RSMCABC goes back to the first threshold and raises when a proposal is rejected; restarts of SABC and ABCsubsim raise (SABC with epsilon zero on a used sampler stores the old population with distances zero); those of APMCABC raise unless the weights of the file sum to one, and continue as they should then."
  },
  {
   "property": "C120",
   "status": "partial",
   "theorems": [
    "Verif.Apmc.C120_apmc_partial",
    "Verif.Apmc.C120_apmc_violated",
    "Verif.Apmc.C120_apmc_run_violated",
    "Verif.Pmc.C114_end",
    "Verif.Files.C120_pmc",
    "Verif.Files.C120_sabc",
    "Verif.Files.C120_subsim",
    "Verif.Files.C120_rsmcabc",
    "Verif.Files.C120_smcabc"
   ],
   "note": "Holds for PMCABC, PMC, SABC, ABCsubsim and RSMCABC, and for SMCABC if a step is carried out; APMCABC leaves out the last population if it stops early because of the acceptance rate. The other samplers save once, at the end."
  },
  {
   "property": "C121",
   "status": "partial",
   "theorems": [
    "Verif.Cov.C121",
    "Verif.Cov.C121_unweighted",
    "Verif.Cov.C121_accepted",
    "Verif.Cov.C121_posterior",
    "Verif.Cov.C121_violated"
   ],
   "note": "Symmetric, positive semidefinite, variance of every direction, criterion for definiteness. Violated: if one particle has all the weight the correction divides by zero and there is no matrix."
  },
  {
   "property": "C122",
   "status": "partial",
   "theorems": [
    "Verif.Network.C122_update",
    "Verif.Network.C122_pmf",
    "Verif.Network.C122_partial",
    "Verif.Network.C122_numbers_violated",
    "Verif.Network.C122_weights_violated",
    "Verif.Network.C122_dimension_violated"
   ],
   "note": "Holds for parameters stored as arrays of size one. Violated: for plain numbers the weights are read from node 1 (line 685); for models with several outputs `pmf` raises."
  },
  {
   "property": "C123",
   "status": "partial",
   "theorems": [
    "Verif.Schedule.C123_partial",
    "Verif.Schedule.C123_violated",
    "Verif.Graph.C123_prior",
    "Verif.Graph.C123_stale_violated",
    "Verif.Schedule.C123_pmcabc",
    "Verif.Schedule.C123_smcabc",
    "Verif.Schedule.C123_rsmcabc",
    "Verif.Schedule.C123_apmcabc",
    "Verif.Schedule.C123_sabc",
    "Verif.Schedule.C123_subsim",
    "Verif.Schedule.C123_held_violated"
   ],
   "note": "Proved for RejectionABC on the graph model with every schedule, and for whole runs of PMCABC, SMCABC, RSMCABC, APMCABC, SABC and ABCsubsim: two runs whose tasks start in states that no operation of the task can tell apart are equal. Violated: SlicedWasserstein (and LogReg) keep a generator; a prior draw outside of the declared support leaves the value of an earlier use; PMCABC with a first threshold not below the maximum of the distance returns what the graph held."
  },
  {
   "property": "C124",
   "status": "partial",
   "theorems": [
    "Verif.Schedule.C124_partial",
    "Verif.Schedule.C124_given",
    "Verif.Schedule.C124_violated"
   ],
   "note": "Bound for the fraction of seed arrays with a repetition, for every number of tasks and seeds. Violated for RejectionABC: n seeds out of n*n-1 numbers, so for every n at least a quarter of the runs return a particle twice."
  },
  {
   "property": "C125",
   "status": "proved",
   "theorems": [
    "Verif.Rejection.C125",
    "Verif.Rejection.C125_count"
   ],
   "note": "Limit over the number of trials of finite sums over sequences of outcomes."
  },
  {
   "property": "C126",
   "status": "proved",
   "theorems": [
    "Verif.Deriv.C126",
    "Verif.Deriv.C126_value",
    "Verif.Deriv.C126_full"
   ],
   "note": "For nonlinearities that are twice differentiable with exact derivatives (shown for softplus); reals instead of floats."
  },
  {
   "property": "C127",
   "status": "proved",
   "theorems": [
    "Verif.Deriv.C127"
   ],
   "note": "For networks that compute their derivatives."
  },
  {
   "property": "C128",
   "status": "proved",
   "theorems": [
    "Verif.Deriv.C128",
    "Verif.Deriv.C128_noise",
    "Verif.Deriv.C128_refused"
   ],
   "note": "torch.randn_like is taken to give independent standard normal numbers."
  },
  {
   "property": "C129",
   "status": "partial",
   "theorems": [
    "Verif.Deriv.C129_partial",
    "Verif.Deriv.C129_violated"
   ],
   "note": "Batches are proved. Violated: the recorded loss divides by one more than the number of batches; with one batch it is half of the loss."
  },
  {
   "property": "C130",
   "status": "partial",
   "theorems": [
    "Verif.Densities.C130_normal",
    "Verif.Densities.C130_lognormal",
    "Verif.Densities.C130_exponential",
    "Verif.Densities.C130_student",
    "Verif.Densities.C130_checks",
    "Verif.Densities.C130_variance_violated"
   ],
   "note": "The densities agree with the samplers for every accepted input. Documentation calls the second parameter of Normal the variance; it is the standard deviation (C130_variance_violated). numpy samplers as functions of uniform, normal and gamma numbers, and scipy formulas, are trusted descriptions; StudentT.pdf on a fresh argument (its in-place update is C74)."
  },
  {
   "property": "C131",
   "status": "partial",
   "theorems": [
    "Verif.Densities.C131_partial",
    "Verif.Densities.C131_violated"
   ],
   "note": "Sampler and mass function truncate the rate: they agree with each other, and are the Poisson law of the truncated rate; the claim holds exactly for integer rates."
  },
  {
   "property": "C132",
   "status": "partial",
   "theorems": [
    "Verif.Densities.C132_partial",
    "Verif.Densities.C132_violated"
   ],
   "note": "Exact for symmetric matrices; in every dimension from two on some matrix that is neither symmetric nor positive definite is accepted (absolute tolerance 1e-3, Cholesky reads the lower triangle)."
  },
  {
   "property": "C133",
   "status": "partial",
   "theorems": [
    "Verif.Densities.C133_normal_iff",
    "Verif.Densities.C133_normal_partial",
    "Verif.Densities.C133_normal_violated",
    "Verif.Densities.C133_student_partial",
    "Verif.Densities.C133_student_violated"
   ],
   "note": "Holds for symmetric matrices. For MultivariateNormal an exact criterion; accepted matrices that are not symmetric break it. Infinite degrees of freedom (accepted by MultiStudentT) not modelled."
  },
  {
   "property": "C134",
   "status": "partial",
   "theorems": [
    "Verif.Distance.C134_kl",
    "Verif.Distance.C134_gamma",
    "Verif.Distance.C134_hellinger_violated"
   ],
   "note": "Proved for the KL and gamma divergences. The Hellinger estimate sums over the data where the plug-in estimate averages, so it is always smaller than the plug-in estimate."
  },
  {
   "property": "C135",
   "status": "partial",
   "theorems": [
    "Verif.Mcmc.C135_fresh_partial",
    "Verif.Mcmc.C135_restart_partial",
    "Verif.Mcmc.C135_violated"
   ],
   "note": "Proved except at steps where the proposal has prior density zero: there the code skips the adaptation, although the step is a multiple of the interval."
  },
  {
   "property": "C136",
   "status": "partial",
   "theorems": [
    "Verif.Kernel.C136_normal_partial",
    "Verif.Kernel.C136_student",
    "Verif.Kernel.C136_symmetric",
    "Verif.Kernel.C136_joint",
    "Verif.Kernel.C136_normal_violated"
   ],
   "note": "Holds for the Student kernel, and for the normal kernel when all eigenvalues exceed scipy's cut-off. Violated otherwise: multivariate_normal is called with allow_singular=True, so a positive definite matrix with a small eigenvalue gets the density of a degenerate law, which ignores a parameter that the draws do move."
  },
  {
   "property": "C137",
   "status": "partial",
   "theorems": [
    "Verif.Pmc.Target.C137_loop",
    "Verif.Pmc.Target.C137_first",
    "Verif.Pmc.Target.C137_partial",
    "Verif.Pmc.Target.C137_violated",
    "Verif.Pmc.Target.C137_exact",
    "Verif.Pmc.Target.C137_bounds"
   ],
   "note": "Holds in the first iteration, and later when all particles of the population have the same probability of leaving the support of the prior when perturbed (in particular if they cannot leave it). Violated otherwise: perturbation is repeated until the result has positive prior density, but the weight uses the density of the unrestricted kernel. What is estimated then is given exactly (C137_exact), and averages are wrong by a factor of at most 1/s if particles stay inside with probability at least s (C137_bounds)."
  },
  {
   "property": "C138",
   "status": "partial",
   "theorems": [
    "Verif.Site.C138_partial",
    "Verif.Site.C138_smcabc",
    "Verif.Site.C138_apmcabc",
    "Verif.Site.C138_sabc",
    "Verif.Site.C138_subsim",
    "Verif.Site.C138_arithmetic_violated",
    "Verif.Site.C138_smcabc_violated"
   ],
   "note": "Proved for PMCABC for graphs without arithmetic expressions as inputs of simulators, and for SMCABC (three kernels), APMCABC, SABC and ABCsubsim if also supports do not depend on other parameters. It fails with an arithmetic expression (not computed again after a perturbation), and for SMCABC with a support that depends on another parameter (the old particle is returned with the data of the proposal). RSMCABC returns the old particle with the new distance (C47)."
  },
  {
   "property": "C139",
   "status": "proved",
   "theorems": [
    "Verif.Site.C139_pmcabc",
    "Verif.Site.C139_smcabc_first",
    "Verif.Site.C139_smcabc",
    "Verif.Site.C139_rsmcabc",
    "Verif.Site.C139_apmcabc",
    "Verif.Site.C139_sabc",
    "Verif.Site.C139_subsim"
   ],
   "note": "Simulators without arithmetic expressions above them; populations of vectors that set_parameters accepts (the results of tasks are such again). RSMCABC with at least one move for each particle. The first population of ABCsubsim is not included (there the code concatenates parameters)."
  },
  {
   "property": "C140",
   "status": "partial",
   "theorems": [
    "Verif.Nested.C140_partial",
    "Verif.Nested.C140_exception_violated",
    "Verif.Nested.C140_delete_violated",
    "Verif.Nested.session_plain",
    "Verif.Nested.session_run",
    "Verif.Nested.bad_run",
    "Verif.Nested.bad_session"
   ],
   "note": "Proved for all team sizes and commands when no nested call raises. Violated: an exception of a nested call in any process leaves the team in different collective operations for ever; workers keep deleted broadcast values."
  },
  {
   "property": "C141",
   "status": "partial",
   "theorems": [
    "Verif.Nested.C141_partial",
    "Verif.Nested.C141_violated",
    "Verif.Nested.C141_hits_violated",
    "Verif.Nested.C141_rejection_violated",
    "Verif.Nested.C141_rejection"
   ],
   "note": "Holds with one process per model. Violated with more: the generator is copied for the simulation, so the next draw reuses its numbers; SMCABC with an r-hit kernel can loop for ever, and RejectionABC returns particles with a wrong law (1/4 and 3/4 instead of 1/2 each)."
  },
  {
   "property": "C142",
   "status": "partial",
   "theorems": [
    "Verif.Embedding.Props.C142_partial",
    "Verif.Embedding.Props.C142_sizes_partial",
    "Verif.Embedding.Props.C142_refused",
    "Verif.Embedding.Props.C142_declared",
    "Verif.Embedding.Examples.C142_violated",
    "Verif.Embedding.Examples.C142_crash_violated"
   ],
   "note": "Holds for networks in evaluation mode (or without modes) when the class is given, and for default networks with rectified linear units when the sizes are given. Violated for the default network of ExponentialFamilyScoreMatching (softplus is silently replaced) and at the crash point between network and scaler."
  },
  {
   "property": "C143",
   "status": "partial",
   "theorems": [
    "Verif.Embedding.Props.C143_partial",
    "Verif.Embedding.Examples.C143_violated"
   ],
   "note": "Holds with a validation set, for score matching, and for the default networks. Without a validation set the network stays in training mode."
  },
  {
   "property": "C144",
   "status": "proved",
   "theorems": [
    "Verif.Embedding.Losses.C144_contrastive",
    "Verif.Embedding.Losses.C144_triplet"
   ],
   "note": ""
  },
  {
   "property": "C145",
   "status": "partial",
   "theorems": [
    "Verif.Embedding.Losses.C145_partial",
    "Verif.Embedding.Losses.C145_violated",
    "Verif.Embedding.Losses.C145_exact",
    "Verif.Embedding.Losses.C145_batches",
    "Verif.Embedding.Losses.C145_iff",
    "Verif.Embedding.Losses.C145_empty"
   ],
   "note": "Holds if the batch size divides the number of samples; otherwise the last batch has too much weight."
  },
  {
   "property": "C146",
   "status": "proved",
   "theorems": [
    "Verif.Site.C146_pmcabc",
    "Verif.Site.C146_apmcabc",
    "Verif.Site.C146_smcabc",
    "Verif.Site.C146_rsmcabc",
    "Verif.Site.C146_sabc",
    "Verif.Site.C146_subsim",
    "Verif.Site.smc_run_example"
   ],
   "note": "For sites that are Plain (checks read no stored values and do not raise, no arithmetic expressions above the observed models, kernels do not raise; C138 has counterexamples otherwise), priors from which a draw is found and whose draws are accepted, and for PMCABC and RSMCABC thresholds below the maximum of the distance (C123_held_violated otherwise). Runs without a journal file."
  },
  {
   "property": "C147",
   "status": "partial",
   "theorems": [
    "Verif.Site.C147_pmcabc",
    "Verif.Site.C147_apmcabc",
    "Verif.Site.C147_sabc",
    "Verif.Site.C147_subsim",
    "Verif.Site.C147_smcabc",
    "Verif.Site.C147_smcabc_partial",
    "Verif.Site.C147_rsmcabc_partial",
    "Verif.Site.C147_rsmcabc_no_new_values",
    "Verif.Site.C147_rsmcabc_violated",
    "Verif.Site.pmc_run_example"
   ],
   "note": "Holds for PMCABC, APMCABC, SABC, ABCsubsim and SMCABC without resampling. Violated for RSMCABC: a run on a graph reports the distance of an accepted proposal with the old values, and no value enters after the first population. SMCABC with resampling (C45 has the counterexample): proved is that values are inside the prior and each distance is that of stored data simulated with values inside the prior. Sites as in C146."
  },
  {
   "property": "C148",
   "status": "partial",
   "theorems": [
    "Verif.Mpi.C148_partial",
    "Verif.Mpi.C148_violated"
   ],
   "note": "Holds for the stores of the leaders and for broadcast values. Violated: the scheduler keeps every list given to parallelize for ever, because delete_remote_pds does not touch its store. Workers keep broadcast values (C140)."
  },
  {
   "property": "C149",
   "status": "partial",
   "theorems": [
    "Verif.Cov.C149_partial",
    "Verif.Cov.C149_subsim_partial",
    "Verif.Cov.C149_subsim_violated",
    "Verif.Cov.C149_subsim_values"
   ],
   "note": "Holds for all samplers that use _compute_accepted_cov_mats, and for ABCsubsim with two or more components. Violated by ABCsubsim with one component: numpy.cov returns an array without dimensions, which is never reshaped, and every proposal raises."
  },
  {
   "property": "C150",
   "status": "partial",
   "theorems": [
    "Verif.Likelihood.C150_partial",
    "Verif.Likelihood.C150_violated",
    "Verif.Likelihood.C150_ties_violated",
    "Verif.Likelihood.C150_truncated"
   ],
   "note": "Holds for observed statistics that are floating point numbers, if the simulated ones are too or have no ties. Violated: with integer observations the values of the distribution functions are cut to zero and there is never a finite value; with integer simulations tied ranks are cut."
  },
  {
   "property": "C151",
   "status": "partial",
   "theorems": [
    "Verif.Mcmc.C151_partial",
    "Verif.Mcmc.C151_kernels_violated",
    "Verif.Mcmc.C151_mixed_violated",
    "Verif.Mcmc.C151_vectors_violated"
   ],
   "note": "Holds for one kernel whose parameters are numbers. Violated: with two or more kernels (as the default kernel has for continuous and discrete parameters) line 4340 always raises IndexError, because the indices for kernels and rows are swapped; with vector parameters the matrix counts parameters and not components, and the first proposal raises."
  },
  {
   "property": "C152",
   "status": "partial",
   "theorems": [
    "Verif.Mcmc.C152_partial",
    "Verif.Mcmc.C152_stuck_violated",
    "Verif.Mcmc.C152_journal_violated",
    "Verif.Mcmc.C152_interval_violated",
    "Verif.Mcmc.C152_run",
    "Verif.Mcmc.C152_start"
   ],
   "note": "The matrix is positive definite exactly if two of the states of the burn-in differ. Violated: if all proposals before the first adaptation are rejected, the matrix becomes zero and stays zero, and all states of the journal are the starting point (C152_run: with an acceptance rate of one); with an interval of one there is no matrix at all and the call raises unless the first proposal is outside of the prior."
  },
  {
   "property": "C153",
   "status": "proved",
   "theorems": [
    "Verif.Embedding.Props.C153",
    "Verif.Embedding.Props.forward_eq",
    "Verif.Embedding.Props.C153_run",
    "Verif.Embedding.Props.C153_sizes"
   ],
   "note": "For parameters of the declared shapes (C142_declared: all that are read from a file). A column that is constant on the reference simulations is refused here; the code divides by zero. C153_run is a network with a hidden layer and two reference simulations."
  },
  {
   "property": "C154",
   "status": "partial",
   "theorems": [
    "Verif.Site.C154_parallel_partial",
    "Verif.Site.C154_at_once_partial",
    "Verif.Site.C154_refused_violated",
    "Verif.Site.C154_run"
   ],
   "note": "Holds for parameters that the priors accept. Violated for a starting point that a prior refuses: that set_parameters returned False is only logged, and the data come from a mixture of the new entries and the values that the graph held before."
  },
  {
   "property": "C155",
   "status": "partial",
   "theorems": [
    "Verif.Site.C155_fresh_partial",
    "Verif.Site.C155_restart_partial",
    "Verif.Site.C155_reproducible_partial",
    "Verif.Site.C155_refused_violated"
   ],
   "note": "Holds for starting points that the priors accept and simulators that take what the priors accept. Violated for a starting point that a prior refuses: its likelihood comes from what the graph held before the call."
  },
  {
   "property": "C156",
   "status": "proved",
   "theorems": [
    "Verif.Site.C156",
    "Verif.Site.C156_reproducible"
   ],
   "note": "Without iniPoints (C117). Runs that do not end with the given fuel, or raise, do so in both."
  },
  {
   "property": "C157",
   "status": "proved",
   "theorems": [
    "Verif.Site.C157_schedule",
    "Verif.Site.C157_results",
    "Verif.Site.C157_lost"
   ],
   "note": "Spark itself (slices of consecutive elements, copies for every attempt, first result kept) is assumed. A data set is computed at collect, with the sampler as it is then; no sampler of the library changes itself between map and collect."
  },
  {
   "property": "C158",
   "status": "partial",
   "theorems": [
    "Verif.Network.C158_partial",
    "Verif.Network.C158_violated",
    "Verif.Nn.C158_pairs_violated",
    "Verif.Network.C158_numbers"
   ],
   "note": "Violated: the network kernel and the data sets of pairs and triplets call np.random, the generator of the process. What holds: the network kernel moves to neighbours, keeps shapes, and does not touch the generator passed. The other kernels draw from the generator passed (Kernel, Site)."
  },
  {
   "property": "C159",
   "status": "partial",
   "theorems": [
    "Verif.Deriv.C159_partial",
    "Verif.Deriv.C159_violated"
   ],
   "note": "Violated: with the default batch normalisation, a last batch of one sample (17, 33, 49, ... samples with the default batch size) makes PyTorch raise. The theorem gives the exact condition."
  },
  {
   "property": "C160",
   "status": "partial",
   "theorems": [
    "Verif.Deriv.C160_partial",
    "Verif.Deriv.C160_eval",
    "Verif.Deriv.C160_linear_violated"
   ],
   "note": "Exact arithmetic. Violated for a network of the parameters without hidden layers: the argument batch_norm has no effect."
  },
  {
   "property": "C161",
   "status": "partial",
   "theorems": [
    "Verif.Deriv.C161_partial",
    "Verif.Deriv.C161_violated"
   ],
   "note": "Violated: the saved dictionaries share memory with the networks, so the networks of the stopping epoch are kept. The epoch of the stop and the losses are as stated."
  },
  {
   "property": "C162",
   "status": "proved",
   "theorems": [
    "Verif.Journal.C162_histogram"
   ],
   "note": "Edges are real numbers; with rounded edges an inner edge may move a value to the next bin."
  },
  {
   "property": "C163",
   "status": "partial",
   "theorems": [
    "Verif.Learning.C163_network_partial",
    "Verif.Learning.C163_score_partial",
    "Verif.Learning.C163_provided",
    "Verif.Learning.C163_violated",
    "Verif.Learning.C163_several_partial"
   ],
   "note": "Violated for several data sets per parameter with statistics that do more than return the data (C163_violated); proved for one data set per parameter, for several with previous statistics that return the data (C163_several_partial), and for given data. Score matching always uses one."
  },
  {
   "property": "C164",
   "status": "partial",
   "theorems": [
    "Verif.Deriv.C164_partial",
    "Verif.Deriv.C164_loss_partial",
    "Verif.Deriv.C164_same",
    "Verif.Deriv.C164_violated"
   ],
   "note": "Proved for networks that treat rows one by one; for the default networks the loss equals the one with derivatives computed along with the output (C164_same). Violated by networks that mix rows (C164_violated)."
  },
  {
   "property": "C165",
   "status": "partial",
   "theorems": [
    "Verif.Deriv.C165_partial",
    "Verif.Deriv.C165_violated"
   ],
   "note": "Violated: NaN and negative infinity are never refused (C165_violated); what is refused is characterised exactly (C165_partial). Overflow of sums is not modelled."
  },
  {
   "property": "C166",
   "status": "partial",
   "theorems": [
    "Verif.Mcmc.C166_continuous_partial",
    "Verif.Mcmc.C166_walk_partial",
    "Verif.Mcmc.C166_default_partial",
    "Verif.Mcmc.C166_network_partial",
    "Verif.Mcmc.C166_violated",
    "Verif.Mcmc.network_update",
    "Verif.Mcmc.C166_chain"
   ],
   "note": "Holds for the normal and Student kernels with a fixed symmetric positive definite matrix, for the random walk, for the default kernel joining the two, and for the network kernel if the weights are symmetric and have the same sum at every node; then every state of a chain started in the posterior follows it. Violated by the network kernel otherwise: the acceptance rule has no ratio of kernel probabilities, and on a path of three nodes with a flat posterior a step doubles the probability of the middle."
  },
  {
   "property": "C167",
   "status": "proved",
   "theorems": [
    "Verif.Mpi.C167_latest"
   ],
   "note": "Destruction of a replaced broadcast object is immediate (CPython reference counting, no other references), as in the samplers. Workers that are no leaders keep values, see C140."
  },
  {
   "property": "C168",
   "status": "partial",
   "theorems": [
    "Verif.Smc.C168_partial",
    "Verif.Smc.C168_units_violated",
    "Verif.Smc.C168_ties_violated"
   ],
   "note": "Proved when more than alpha is left at the old threshold and at most alpha within 0.001 above every threshold at which nothing is left. The property fails when all distances are at least 100000 and the distance has no maximum (the run starts at 100000 whatever the unit), and with ties: all distances 1, maximum 3, epsilon_final 0 leads to the threshold 4095/4096 and to NaN weights."
  },
  {
   "property": "C169",
   "status": "partial",
   "theorems": [
    "Verif.Floats.C169_partial",
    "Verif.Floats.C169_python_partial",
    "Verif.Floats.C169_sign_partial",
    "Verif.Floats.C169_violated",
    "Verif.Floats.C169_endless_violated",
    "Verif.Floats.C169_python_violated"
   ],
   "note": "Proved for all ends with 4 u M at most the tolerance, for Python's floats and the tolerance 0.001 up to 10^12 (at most 50 halvings), with the bracket of the sign change. It fails for larger numbers: if the sign changes above 2^44 (about 1.8 10^13) and not at a zero, the search never ends, for every function and all ends (C169_python_violated); C169_endless_violated is the condition for any format. Overflow and underflow are not modelled."
  },
  {
   "property": "C170",
   "status": "proved",
   "theorems": [
    "Verif.Floats.C170_accepted",
    "Verif.Floats.C170_le_one",
    "Verif.Floats.C170_python",
    "Verif.Floats.C170_equal"
   ],
   "note": "For every rounding with relative error u and n weights with 4 n u at most 2^-26; Python's floats up to 2^25 weights. Underflow and overflow are not modelled; the tolerance of numpy is part of the trusted base."
  },
  {
   "property": "C171",
   "status": "partial",
   "theorems": [
    "Verif.Floats.C171_partial",
    "Verif.Floats.C171_scale",
    "Verif.Floats.C171_violated"
   ],
   "note": "Proved if at least one log-weight is a number, with underflow of the exponential function and of the division. Fails if all log-weights are minus infinity: all weights are NaN then."
  },
  {
   "property": "C172",
   "status": "proved",
   "theorems": [
    "Verif.Mcmc.C172_chain",
    "Verif.Mcmc.C172_normal",
    "Verif.Mcmc.C172_student",
    "Verif.Mcmc.C172_noisy",
    "Verif.Mcmc.C172_noisy_kernels",
    "Verif.Mcmc.C172_fraction",
    "Verif.Mcmc.chain_exists"
   ],
   "note": "The laws of the states are those of the modelled step (uniform draw, acceptance rule, kernel of C136); no adaptation of the covariance matrix, real arithmetic. With likelihoods estimated from simulated data (bounded estimates) the limit is the posterior for the mean of the estimates."
  },
  {
   "property": "C173",
   "status": "partial",
   "theorems": [
    "Verif.Pmc.LikTarget.C173_squared",
    "Verif.Pmc.LikTarget.C173_partial",
    "Verif.Pmc.LikTarget.C173_violated",
    "Verif.Pmc.Target.C173_exact"
   ],
   "note": "Holds for priors that are uniform on their support if all particles have the same probability of leaving the support when perturbed. Violated for other priors: the prior density enters the weights twice, and the particles estimate averages under likelihood times the square of the prior density."
  },
  {
   "property": "C174",
   "status": "proved",
   "theorems": [
    "Verif.Mcmc.C174_chain",
    "Verif.Mcmc.C174_kernels",
    "Verif.Mcmc.C174_mean"
   ],
   "note": "No adaptation of the covariance matrix after the burn-in (there is none in the code), real arithmetic; likelihoods may be estimated from simulated data, the limit is then the posterior for the mean of the estimates."
  },
  {
   "property": "C175",
   "status": "proved",
   "theorems": [
    "Verif.LogReg.C175",
    "Verif.LogReg.C175_empty"
   ],
   "note": "The logistic regression itself (glmnet) is a parameter."
  },
  {
   "property": "C176",
   "status": "proved",
   "theorems": [
    "Verif.LogReg.C176"
   ],
   "note": "The fit (glmnet) is a parameter: the theorem says what the value is for a model with the true class probabilities."
  },
  {
   "property": "C177",
   "status": "proved",
   "theorems": [
    "Verif.Rejection.C177_task",
    "Verif.Rejection.C177_law",
    "Verif.Rejection.C177_average",
    "Verif.Rejection.C177_error"
   ],
   "note": "Random numbers of a task are independent draws from any probability space, and tasks use independent sequences (that seeds of workers may coincide is C35)."
  },
  {
   "property": "C178",
   "status": "proved",
   "theorems": [
    "Verif.Rejection.C178_weight",
    "Verif.Rejection.C178_exact",
    "Verif.Rejection.C178"
   ],
   "note": "The law of the accepted parameters is that of C177."
  },
  {
   "property": "C179",
   "status": "partial",
   "theorems": [
    "Verif.Smc.C179_move",
    "Verif.Smc.C179_weighted_partial",
    "Verif.Smc.C179_partial",
    "Verif.Smc.C179_parts_violated",
    "Verif.Smc.dmWeights_eq",
    "Verif.Smc.C179_even",
    "Verif.Smc.C179_bounds"
   ],
   "note": "Proved if the initial threshold has all parts of a simulation on one side and proposals are never refused, or refused with the same probability from all values (C179_even). With other refusals the estimates after k steps are right up to a factor given by the largest probability of a refusal (C179_bounds). For a first threshold that separates the parts the negation is proved. Thresholds and populations are fixed in advance; with resampling the particles lose their simulations (C45)."
  },
  {
   "property": "C180",
   "status": "partial",
   "theorems": [
    "Verif.Journal.C180_partial",
    "Verif.Journal.C180_ok",
    "Verif.Journal.C180_twice_violated"
   ],
   "note": "For parameters with one component and names that are all different; for a name given twice the negation is proved. Drawing and density estimates are not modelled."
  },
  {
   "property": "C181",
   "status": "partial",
   "theorems": [
    "Verif.Journal.C181_partial",
    "Verif.Journal.C181_ranges_violated",
    "Verif.Journal.C181_array_violated"
   ],
   "note": "Lists of two numbers are used and stay; the code changes dictionaries that lack a parameter and refuses all arrays."
  },
  {
   "property": "C182",
   "status": "partial",
   "theorems": [
    "Verif.Pmc.Averages.C182_consistent",
    "Verif.Pmc.Averages.C182_error",
    "Verif.Pmc.Averages.C182_first",
    "Verif.Pmc.Averages.C182_pmcabc_partial",
    "Verif.Pmc.Averages.C182_pmcabc_error_partial",
    "Verif.Pmc.Averages.C182_pmc_partial",
    "Verif.Pmc.Averages.C182_violated",
    "Verif.Pmc.Averages.C182_pmcabc_exact",
    "Verif.Pmc.Averages.C182_pmcabc_bounds",
    "Verif.Pmc.Averages.C182_pmc_exact"
   ],
   "note": "Convergence and error bounds when all previous particles leave the support with the same probability (and, for PMC, uniform priors). Violated otherwise: there the estimated probability of a set tends to a wrong number (C182_violated). For all populations and priors the limit is given exactly (C182_pmcabc_exact, C182_pmc_exact), and it is off by a factor of at most 1/s if particles stay inside with probability at least s (C182_pmcabc_bounds)."
  },
  {
   "property": "C183",
   "status": "partial",
   "theorems": [
    "Verif.Cov.C183_matrices",
    "Verif.Cov.C183_pmc_partial",
    "Verif.Cov.C183_propose",
    "Verif.Cov.C183_pmc_violated"
   ],
   "note": "Holds for all samplers with one factor and for PMC with at least as many factors as kernels. Violated by PMC with fewer factors than kernels: zip drops the matrices of the last kernels, and every proposal raises an IndexError (C183_pmc_violated)."
  },
  {
   "property": "C184",
   "status": "partial",
   "theorems": [
    "Verif.Apmc.Target.C184_first_kept",
    "Verif.Apmc.Target.C184_kept_partial",
    "Verif.Apmc.Target.C184_first_violated",
    "Verif.Apmc.Target.C184_later_violated",
    "Verif.Apmc.Target.C184_example_violated",
    "Verif.Apmc.Target.C184_kept_exact",
    "Verif.Apmc.Target.C184_kept_bounds",
    "Verif.Apmc.Target.C184_later_bounds_violated"
   ],
   "note": "True of the particles below the threshold, which APMCABC keeps for the next step (later steps: if all previous particles leave the support with the same probability; for other populations the limit is given exactly and bounded). Violated by the journal, which lists the new particles whatever their distance: their averages converge to prior averages, for all populations up to a factor at the boundary."
  },
  {
   "property": "C185",
   "status": "partial",
   "theorems": [
    "Verif.Journal.C185_partial",
    "Verif.Journal.C185_refused",
    "Verif.Journal.C185_violated",
    "Verif.Journal.C185_exact"
   ],
   "note": "Violated exactly by chains with one sample of a parameter with several components (C185_exact): squeeze removes the step axis, and the components are drawn as steps."
  },
  {
   "property": "C186",
   "status": "partial",
   "theorems": [
    "Verif.Journal.C186_points",
    "Verif.Journal.C186_line_partial",
    "Verif.Journal.C186_violated",
    "Verif.Journal.C186_sizes"
   ],
   "note": "Violated when the last population is smaller than an earlier one, as after a restart with fewer samples: the line is at the size of the last population. C186_sizes says for populations of any sizes which points are below, on and above the line."
  },
  {
   "property": "C187",
   "status": "partial",
   "theorems": [
    "Verif.Mcmc.C187_partial",
    "Verif.Mcmc.leavesPosterior",
    "Verif.Mcmc.C52_one_bounded_violated"
   ],
   "note": "With bounds for two or more parameters that are single precision numbers, and a fixed symmetric positive definite matrix for the normal or Student kernel. Violated for one bounded parameter (every call raises) and by rounded bounds (C55)."
  },
  {
   "property": "C188",
   "status": "partial",
   "theorems": [
    "Verif.Mcmc.C188_partial",
    "Verif.Mcmc.C188_call_partial",
    "Verif.Mcmc.C188_bounds_violated",
    "Verif.Mcmc.C188_first_violated"
   ],
   "note": "Violated with bounds: proposals are made in the transformed space, the matrix is computed from the states before the transformation. Violated by the interval one: the matrix of a single state has one row, and the next proposal raises."
  },
  {
   "property": "C189",
   "status": "partial",
   "theorems": [
    "Verif.Files.C189_pmc_partial",
    "Verif.Files.C189_sabc_partial",
    "Verif.Files.C189_subsim_partial",
    "Verif.Files.C189_rsmcabc_partial",
    "Verif.Files.C189_rsmcabc_stopped",
    "Verif.Files.C189_apmcabc_partial",
    "Verif.Files.C189_smcabc_partial",
    "Verif.Files.C189_smcabc_violated",
    "Verif.Files.C189_rsmcabc_violated"
   ],
   "note": "With full output (SABC: always) the file holds what it held before, or nothing that can be read, or the journal of the same call with fewer steps. Violated: saving empties the file first; without full output the journals saved before the last step have no population."
  },
  {
   "property": "C190",
   "status": "partial",
   "theorems": [
    "Verif.Expr.C190_law",
    "Verif.Expr.C190_partial",
    "Verif.Expr.C190_prior_violated",
    "Verif.Expr.C190_violated"
   ],
   "note": "Holds if expressions are formed of constants only (C190_partial). Otherwise an expression draws fresh values of its inputs: parameters that are used in expressions only, and have constant inputs, are returned with their prior probabilities, whatever the data (C190_prior_violated, for every graph; C190_violated is a coin X with simulator X + X). C190_law says what is sampled from in general."
  },
  {
   "property": "C191",
   "status": "partial",
   "theorems": [
    "Verif.Floats.C191_partial",
    "Verif.Floats.C191_violated",
    "Verif.Floats.C191_box_violated"
   ],
   "note": "If densities are at least 2^-b at the vector and the exponents add up to at most 1074, pdf_of_prior in floating point is positive, at least 2 to the minus sum (C191_partial). If densities are at most 2^-b and the exponents add up to 1075 or more, the loop of proposals never ends, for every kernel (C191_violated); for 108 or more parameters that are uniform on an interval of length 1024 this happens although with real numbers the first proposal is accepted (C191_box_violated)."
  },
  {
   "property": "C192",
   "status": "partial",
   "theorems": [
    "Verif.Nan.C192_task",
    "Verif.Nan.C192_partial",
    "Verif.Nan.C192_violated",
    "Verif.Nan.C192_law",
    "Verif.Nan.C192_run_partial",
    "Verif.Nan.C192_next_violated",
    "Verif.Nan.C192_run_violated",
    "Verif.Nan.C192_agrees"
   ],
   "note": "Holds for RejectionABC and for whole runs of PMCABC if no distance is NaN (C192_partial, C192_run_partial). Fails otherwise: the loops go on while the distance is greater than the threshold, which is false for NaN, so the first simulation with a NaN distance is returned (C192_violated); exactly what a task returns is C192_task, and its law, the prior given that the distance is at most the threshold or NaN, is C192_law. In PMCABC one NaN makes the threshold of the next step NaN, also if the user gave one, and that step makes no simulation: its particles are what the models held before (C192_next_violated); if the distance has no finite maximum this lasts to the end of the run (C192_run_violated). C192_agrees: for real distances the model is that of Verif.Pmc."
  },
  {
   "property": "C193",
   "status": "partial",
   "theorems": [
    "Verif.Nan.C193_partial",
    "Verif.Nan.C193_quantile_partial",
    "Verif.Nan.C193_violated"
   ],
   "note": "Holds for a cutoff given as a threshold (C193_partial: the kept simulations are exactly those below it, in their order, none of them NaN) and for a quantile if no distance is NaN (C193_quantile_partial). With a quantile one NaN among the distances makes the cutoff NaN, and the call raises (C193_violated)."
  },
  {
   "property": "C194",
   "status": "partial",
   "theorems": [
    "Verif.Nan.C194_decision",
    "Verif.Nan.C194_refused",
    "Verif.Nan.C194_visits",
    "Verif.Nan.C194_partial",
    "Verif.Nan.C194_start_violated",
    "Verif.Nan.C194_agrees"
   ],
   "note": "Proposals with likelihood NaN or zero are never accepted (C194_refused), so a run visits only its starting point and points with a likelihood that is neither (C194_visits); if the starting point is not NaN the run is the one in which NaN counts as likelihood zero (C194_partial), and the decision is that of Metropolis-Hastings with the likelihoods (C194_decision). Fails if the log-likelihood of the starting point, drawn once from the prior, is NaN (or infinite): then every proposal is refused and all samples are the starting point (C194_start_violated). C194_agrees: for real log-likelihoods the model is that of Verif.Mcmc."
  },
  {
   "property": "C195",
   "status": "proved",
   "theorems": [
    "Verif.Nan.Smc.C195_replaced",
    "Verif.Nan.Smc.C195_numbers",
    "Verif.Nan.Smc.C195_weights",
    "Verif.Nan.Smc.C195_move",
    "Verif.Nan.Smc.C195_distances"
   ],
   "note": "C195_replaced: the run with NaN and infinite distances is the run of Verif.Smc in which they are replaced by any number that is at least the first threshold (minus infinity by any number below the last threshold). C195_numbers: without NaN and infinities the model is Verif.Smc. C195_weights: a particle whose distances are NaN gets weight zero. C195_move: a move from a particle with a simulation below the threshold to a proposal whose distances are NaN has acceptance probability zero. C195_distances: the distances in the journal are those of the simulations, NaN where the distance is NaN."
  },
  {
   "property": "C196",
   "status": "partial",
   "theorems": [
    "Verif.Nan.Apmc.C196_step_violated",
    "Verif.Nan.Apmc.C196_run_violated",
    "Verif.Nan.Apmc.C196_partial"
   ],
   "note": "Holds if no distance is NaN: the model is then Verif.Apmc (C196_partial). Fails otherwise: np.percentile gives NaN, no particle is carried over to the next step (C196_step_violated), and a run of two steps or more with a NaN in the first population ends with an exception (C196_run_violated)."
  },
  {
   "property": "C197",
   "status": "partial",
   "theorems": [
    "Verif.Nan.Sabc.C197_smooth_violated",
    "Verif.Nan.Sabc.C197_first_violated",
    "Verif.Nan.Sabc.C197_move_violated",
    "Verif.Nan.Sabc.C197_leave",
    "Verif.Nan.Sabc.C197_exact",
    "Verif.Nan.Sabc.C197_partial",
    "Verif.Nan.Sabc.C197_run_violated"
   ],
   "note": "Holds if no distance is NaN (C197_partial). Fails otherwise: in the first population a NaN raises (C197_first_violated); afterwards its redefined distance is zero, the best possible one (C197_smooth_violated), and a move to it is accepted with every random number if the prior density does not drop (C197_move_violated); C197_run_violated is a run whose journal ends with such a particle. Exactly (C197_exact): the run is the one in which NaN is replaced by the smallest distance of the first tries. Infinite distances are not in the model of SABC."
  },
  {
   "property": "C198",
   "status": "partial",
   "theorems": [
    "Verif.Nan.Rsmc.C198_first_violated",
    "Verif.Nan.Rsmc.C198_move",
    "Verif.Nan.Rsmc.C198_step_violated",
    "Verif.Nan.Rsmc.C198_run_violated",
    "Verif.Nan.Rsmc.C198_partial"
   ],
   "note": "Holds if no distance is NaN or infinite: a run of Verif.Rsmc that ends is the run here (C198_partial); and for moves: a proposal whose distance is NaN is refused (C198_move). Fails otherwise: in the first population a NaN is accepted at once, whatever the threshold (C198_first_violated); if the particles that are kept have the distance NaN, the next threshold is NaN, nothing moves, and all particles have the distance NaN (C198_step_violated), until the end of the run (C198_run_violated)."
  },
  {
   "property": "C199",
   "status": "partial",
   "theorems": [
    "Verif.Nan.Subsim.C199_move",
    "Verif.Nan.Subsim.C199_chain",
    "Verif.Nan.Subsim.C199_stuck_violated",
    "Verif.Nan.Subsim.C199_anneal_violated",
    "Verif.Nan.Subsim.C199_step_violated",
    "Verif.Nan.Subsim.C199_partial"
   ],
   "note": "Holds if no distance is NaN or infinite: the run is that of Verif.Subsim (C199_partial); and for moves: a proposal whose distance is NaN is refused (C199_move, C199_chain). Fails otherwise: a NaN at one of the two places that the annealing parameter is computed from makes it NaN (C199_anneal_violated); then no proposal is accepted (C199_stuck_violated), every chain of the next step repeats one particle of the last one, and the run does not stop (C199_step_violated)."
  },
  {
   "property": "C200",
   "status": "partial",
   "theorems": [
    "Verif.Nan.PmcLik.C200_weights",
    "Verif.Nan.PmcLik.C200_weights_violated",
    "Verif.Nan.PmcLik.C200_partial",
    "Verif.Nan.PmcLik.C200_run_violated",
    "Verif.Nan.PmcLik.C200_restart_violated",
    "Verif.Nan.PmcLik.C200_pair_violated",
    "Verif.Nan.PmcLik.C200_numbers"
   ],
   "note": "Holds for log-likelihoods of minus infinity next to numbers: such particles get weight zero and the others the weights of C41 (C200_weights). Fails for a NaN: it makes all weights NaN, as plus infinity does, or log-likelihoods that are all minus infinity (C200_weights_violated); in the last step such weights go into the journal, which cannot be restarted from (C200_restart_violated); in an earlier step the next one raises (C200_run_violated, C200_pair_violated). C200_partial describes every run that returns. C200_numbers: with numbers only the model is Verif.PmcLik."
  },
  {
   "property": "C201",
   "status": "proved",
   "theorems": [
    "Verif.Rejection.C201_task",
    "Verif.Rejection.C201_run",
    "Verif.Rejection.C201_geometric",
    "Verif.Rejection.C201_moments",
    "Verif.Rejection.C201_rate",
    "Verif.Rejection.C201_never"
   ],
   "note": "The number of simulations of a task is the position of its first accepted outcome (C201_task), the recorded number is their sum (C201_run); law, mean, variance and limit for independent random numbers. A single run has at most 46340 samples (C76); the limit is over tasks, as in C177."
  },
  {
   "property": "C202",
   "status": "proved",
   "theorems": [
    "Verif.Mcmc.C202_fresh"
   ],
   "note": "For fresh runs without adaptation of the proposal (with adaptation the burn-in itself adapts, C152)."
  },
  {
   "property": "C203",
   "status": "partial",
   "theorems": [
    "Verif.Scale.C203_mcmc",
    "Verif.Scale.C203_mcmc_restart",
    "Verif.Scale.C203_pmc",
    "Verif.Scale.C203_pmcabc",
    "Verif.Scale.C203_smc",
    "Verif.Scale.C203_rsmc",
    "Verif.Scale.C203_sabc",
    "Verif.Scale.C203_subsim",
    "Verif.Scale.C203_apmc_first",
    "Verif.Scale.C203_apmc_step",
    "Verif.Scale.C203_apmc_violated"
   ],
   "note": "Proved for MCMC (the recorded log-likelihood moves by the constant), PMC with positive kernel density, PMCABC, SMCABC, RSMCABC, SABC and ABCsubsim. APMCABC violates it: the weights of new particles are multiplied by the quotient of the factors and put beside the normalised weights of the particles carried over, which are not (C203_apmc_step exactly, C203_apmc_violated a run). Numbers are real: underflow and overflow are not modelled here."
  },
  {
   "property": "C204",
   "status": "partial",
   "theorems": [
    "Verif.Units.C204_rejection",
    "Verif.Units.C204_budget",
    "Verif.Units.C204_quantile",
    "Verif.Units.C204_pmcabc",
    "Verif.Units.C204_rsmcabc",
    "Verif.Units.C204_apmcabc",
    "Verif.Units.C204_subsim",
    "Verif.Units.C204_sabc_step",
    "Verif.Units.C204_sabc_rest",
    "Verif.Units.C204_sabc_first",
    "Verif.Units.C204_sabc_violated",
    "Verif.Units.C204_smc_threshold",
    "Verif.Units.C204_smc_moves",
    "Verif.Units.C204_smc_partial",
    "Verif.Units.C204_smc_violated",
    "Verif.Units.C204_smc_start_violated"
   ],
   "note": "Proved for RejectionABC (for any change of distances that preserves their order), PMCABC, RSMCABC, APMCABC and ABCsubsim. SABC violates it: the threshold after the first step is computed from redefined distances, which have no unit, and the first threshold, which has (C204_sabc_first exactly, C204_sabc_violated a run; all later steps are fine). SMCABC violates it: the tolerance of the bisection is 0.001 and, without a largest distance, the first threshold is 100000 in any unit; the rest of a step is fine (C204_smc_partial, C204_smc_threshold)."
  },
  {
   "property": "C205",
   "status": "proved",
   "theorems": [
    "Verif.Rejection.C205_pmcabc",
    "Verif.Rejection.C205_rsmcabc"
   ],
   "note": "For simulators that do not refuse. The samplers seed their workers differently, so for the same seed of the sampler the states of the workers differ; the statement is about the same states."
  },
  {
   "property": "C206",
   "status": "proved",
   "theorems": [
    "Verif.Journal.C206_order",
    "Verif.Journal.C206_unit"
   ],
   "note": "Real arithmetic; the histogram of numpy with a number of bins. The rows of one parameter must have one length."
  },
  {
   "property": "C207",
   "status": "proved",
   "theorems": [
    "Verif.Rejection.C207_samples",
    "Verif.Rejection.C207_budget"
   ],
   "note": "Random numbers are the states of the workers at the start of the tasks; distances are not NaN; the larger threshold must be below the largest distance (else no task can end, C36)."
  },
  {
   "property": "C208",
   "status": "partial",
   "theorems": [
    "Verif.Nan.Weights.C208_partial",
    "Verif.Nan.Weights.C208_run_violated",
    "Verif.Nan.Weights.C208_lost_violated",
    "Verif.Nan.Weights.C208_stays_violated"
   ],
   "note": "Violated: if the mixture density of one particle is computed as zero its weight becomes NaN and the weights of the other particles 0, and any further step raises; a run that returns can only have such a population at its end. Proved if the kernel density is computed as a positive number everywhere: then the run is that of the model over the reals."
  },
  {
   "property": "C209",
   "status": "proved",
   "theorems": [
    "Verif.Files.C209_smcabc",
    "Verif.Files.C209_rsmcabc",
    "Verif.Files.C209_sabc",
    "Verif.Files.C209_apmcabc",
    "Verif.Files.C209_subsim",
    "Verif.Files.C209_pmc",
    "Verif.Files.C209_pmcabc",
    "Verif.Files.C209_mcmc"
   ],
   "note": "With full output (without it only the last population is kept), fresh calls. Random numbers are the states of the workers at the start of the tasks of each step; PMCABC with thresholds for all steps is given the first ones."
  },
  {
   "property": "C210",
   "status": "partial",
   "theorems": [
    "Verif.Files.C210_smcabc",
    "Verif.Files.C210_apmcabc_partial",
    "Verif.Files.C210_apmcabc_violated",
    "Verif.Files.C210_rsmcabc",
    "Verif.Files.C210_sabc",
    "Verif.Files.C210_subsim",
    "Verif.Files.C210_pmc",
    "Verif.Files.C210_pmcabc"
   ],
   "note": "Proved for all samplers but APMCABC, where a run that stops early leaves an empty journal without full output (negation proved); APMCABC runs that carry out all steps are covered. Fresh calls."
  },
  {
   "property": "C211",
   "status": "partial",
   "theorems": [
    "Verif.Graph.C211_prior_law_partial",
    "Verif.Graph.C211_no_refusal_partial",
    "Verif.Graph.C211_retries_partial",
    "Verif.Graph.C211_densities_partial",
    "Verif.Graph.C211_densities_no_refusal_partial",
    "Verif.Graph.C211_shared_discrete_violated",
    "Verif.Graph.C211_arithmetic_violated"
   ],
   "note": "Proved for graphs in which no discrete parameter is reached along two paths and no arithmetic node feeds a parameter; both exceptions are shown to violate it. Stated for random numbers with finitely many outcomes and for densities with respect to any sigma-finite measures. The random variables draw inside of their declared support."
  },
  {
   "property": "C212",
   "status": "partial",
   "theorems": [
    "Verif.Graph.C212_abc_density_partial",
    "Verif.Graph.C212_posterior_partial",
    "Verif.Graph.C212_call",
    "Verif.Graph.C212_shared_discrete_violated"
   ],
   "note": "Proved for graphs in which no discrete parameter is reached along two paths and no arithmetic node feeds a parameter or the simulator: for every bound on the number of trials, and in the limit of unbounded trials, where the parameters returned have the prior density times the probability of acceptance divided by its integral. A discrete parameter that feeds two others is shown to violate it; see C190 and C211 for arithmetic nodes. A single call is described for every graph."
  },
  {
   "property": "C213",
   "status": "partial",
   "theorems": [
    "Verif.Graph.C213_recovers_partial",
    "Verif.Graph.C213_after_raise_partial",
    "Verif.Graph.C213_get_violated",
    "Verif.Graph.C213_sample_violated"
   ],
   "note": "The first call after an interruption can go wrong: reading lists too few parameters, sampling draws nothing (both shown). Proved: once one operation of the graph has returned, all later calls work as on a fresh graph. The mapping of AcceptedParametersManager as that first call is left out."
  },
  {
   "property": "C214",
   "status": "partial",
   "theorems": [
    "Verif.Refuse.C214_rejection",
    "Verif.Refuse.C214_returns_partial",
    "Verif.Refuse.C214_accepting_partial",
    "Verif.Refuse.C214_task_violated",
    "Verif.Refuse.C214_run_violated",
    "Verif.Refuse.C214_picky_violated",
    "Verif.Refuse.C214_apmcabc_violated",
    "Verif.Refuse.C214_abcsubsim_violated",
    "Verif.Refuse.C214_smcabc_violated",
    "Verif.Refuse.C214_draw_partial",
    "Verif.Refuse.C214_rsmcabc_violated",
    "Verif.Refuse.C214_sabc_violated",
    "Verif.Refuse.C214_loop_partial"
   ],
   "note": "Holds for RejectionABC, call by call. Fails for the other samplers: only RejectionABC looks whether simulating has returned data, the others hand None to the distance, which raises TypeError. For each of them there is a theorem saying exactly when a task of the first population, or the population, raises; for PMCABC C214_run_violated says that the run then raises, and C214_picky_violated gives a model on which RejectionABC returns and PMCABC raises. C214_returns_partial: a PMCABC run that returns is the run in which refused simulations are at any given distance; C214_accepting_partial, C214_draw_partial, C214_loop_partial: without refusals the models agree with those of Verif.Pmc, Apmc, Subsim, Smc, Rsmc, Sabc. Later populations of the samplers other than PMCABC are not modelled with refusals."
  },
  {
   "property": "C215",
   "status": "partial",
   "theorems": [
    "Verif.Graph.C215_pairs_partial",
    "Verif.Graph.C215_all_pairs_partial",
    "Verif.Graph.C215_shared_discrete_violated"
   ],
   "note": "C215_pairs_partial: averages of every measurable function of the pair returned, with discarding and refusals, as an integral against the value of pdf_of_prior, up to a factor that does not depend on the function. C215_all_pairs_partial: without them the factor is one. Fails for a discrete parameter that is reached along two paths, whose density the code multiplies twice (C215_shared_discrete_violated). Arithmetic nodes that feed parameters are excluded (C190)."
  },
  {
   "property": "C216",
   "status": "partial",
   "theorems": [
    "Verif.Edge.C216_rejectionabc_partial",
    "Verif.Edge.C216_pmcabc_partial",
    "Verif.Edge.C216_rsmcabc_move_violated",
    "Verif.Edge.C216_rsmcabc_run_violated",
    "Verif.Edge.C216_abcsubsim_violated",
    "Verif.Edge.C216_smcabc_violated",
    "Verif.Edge.C216_apmcabc_violated",
    "Verif.Edge.C216_apmcabc_run_violated"
   ],
   "note": "Holds in RejectionABC and PMCABC. The other four samplers compare strictly: RSMCABC accepts nothing any more and copies its particles for the rest of the run, chains of ABCsubsim do not move, SMCABC gives all particles weight zero (NaN), APMCABC carries nothing over and fails in the next step, so that no run of two steps returns if all data sets have the same distance."
  },
  {
   "property": "C217",
   "status": "partial",
   "theorems": [
    "Verif.Floats.C217_mean_partial",
    "Verif.Floats.C217_range_partial",
    "Verif.Floats.C217_ess_partial",
    "Verif.Floats.C217_range_violated",
    "Verif.Floats.C217_ess_violated"
   ],
   "note": "The error bounds hold. The ranges hold only up to these errors: the mean of three samples equal to 0.1 is the float after 0.1, and the effective sample size of two particles with weights 1 and 1 - 2^-53 is the float after 2. Overflow and underflow are not modelled here."
  },
  {
   "property": "C218",
   "status": "proved",
   "theorems": [
    "Verif.Floats.C218_run"
   ],
   "note": "Prior and kernel densities are taken as the numbers that the code evaluated; their own rounding errors (scipy) are not modelled. Underflow and overflow are excluded; see C171, C191 and C208 for them."
  },
  {
   "property": "C219",
   "status": "partial",
   "theorems": [
    "Verif.Floats.C219_between_partial",
    "Verif.Floats.C219_run_partial",
    "Verif.Floats.C219_equal_partial",
    "Verif.Floats.C219_old_violated"
   ],
   "note": "Proved for the interpolation of np.percentile since numpy 1.20, and refuted for the one before, which requirements.txt does not exclude: two particles at distance 3 and epsilon_percentile=30 give a threshold less than 3, and the next step never ends if all data have distance 3. The two interpolations are written from knowledge of numpy, whose code is not in /repo. Underflow and overflow are left out."
  },
  {
   "property": "C220",
   "status": "partial",
   "theorems": [
    "Verif.Refuse.C220_pairs_partial",
    "Verif.Refuse.C220_pairs_violated",
    "Verif.Refuse.C220_task",
    "Verif.Refuse.C220_chance_violated",
    "Verif.Refuse.C220_many_violated",
    "Verif.Refuse.C220_learning_violated",
    "Verif.Refuse.C220_learning_partial"
   ],
   "note": "The code violates the property: a call that draws pairs raises exactly if one of the draws is refused, so with independent draws that are refused with probability p it returns n pairs with probability (1-p)^n, which tends to zero; learning raises for one refused draw. Proved: calls without refusals return all draws in order, for every chunk size, and learn from the training data of C65."
  },
  {
   "property": "C221",
   "status": "partial",
   "theorems": [
    "Verif.Graph.C221_parameters",
    "Verif.Graph.C221_density",
    "Verif.Graph.C221_acceptance_partial",
    "Verif.Graph.C221_acceptance_violated",
    "Verif.Joint.C221_distance",
    "Verif.Joint.C221_maximum",
    "Verif.Joint.C221_likelihood"
   ],
   "note": "Parameters, densities, distances and likelihoods do not depend on the order. Acceptance does: a prior whose support depends on a parameter that the order puts later is checked against the value of before (C06). Real arithmetic: sums of floating-point numbers depend on the order in their last digits."
  },
  {
   "property": "C222",
   "status": "partial",
   "theorems": [
    "Verif.Journal.C222_lookup",
    "Verif.Journal.C222_names_partial",
    "Verif.Journal.C222_names_violated",
    "Verif.Journal.C222_default_violated"
   ],
   "note": "Holds when names are pairwise different. Names default to the name of the distribution, and the journal keeps a dictionary: of several parameters with one name only the last is listed, under every such model."
  },
  {
   "property": "C223",
   "status": "partial",
   "theorems": [
    "Verif.Pmc.C223_exact",
    "Verif.Pmc.C223_partial",
    "Verif.Pmc.C223_violated",
    "Verif.Pmc.C223_again",
    "Verif.Pmc.C223_second_violated"
   ],
   "note": "Holds with one threshold for several steps, and if no percentile exceeds the threshold given for the next step. Otherwise the sampler writes the thresholds it uses into the caller's object, and a second call with it has thresholds that are never lower."
  },
  {
   "property": "C224",
   "status": "partial",
   "theorems": [
    "Verif.Pmc.C224_exact",
    "Verif.Pmc.C224_partial",
    "Verif.Pmc.C224_violated",
    "Verif.Pmc.C224_integers_violated"
   ],
   "note": "Holds for percentiles that are integers. The sampler works on the caller's array, which cuts off decimals, so that a threshold is the larger one of the given one and the percentile rounded down."
  },
  {
   "property": "C225",
   "status": "proved",
   "theorems": [
    "Verif.Pmc.C225_sizes",
    "Verif.Pmc.C225_other",
    "Verif.Pmc.C225_resample"
   ],
   "note": "It holds because a restart that asks for another number of samples than the journal has raises in its first step (C225_other). Repeated names are treated in C33."
  },
  {
   "property": "C226",
   "status": "proved",
   "theorems": [
    "Verif.Pmc.C226_task",
    "Verif.Pmc.C226_iteration",
    "Verif.Pmc.C226_cost",
    "Verif.Pmc.C226_never"
   ],
   "note": "p is the probability that the data simulated from the first perturbation of positive prior density of a chosen particle (or, in the first iteration, from a draw of the prior) are within the threshold. Attempts are independent and identically distributed within and between tasks. That perturbing ends with probability one is a hypothesis of C226_cost."
  },
  {
   "property": "C227",
   "status": "partial",
   "theorems": [
    "Verif.Nan.ApmcWeights.C227_partial",
    "Verif.Nan.ApmcWeights.C227_step_violated",
    "Verif.Nan.ApmcWeights.C227_run_violated"
   ],
   "note": "Violated: if the mixture density of a proposal is computed as zero its weight is infinite, and the journal stores it. If that particle is carried over its weight becomes NaN and the weights of all others zero, and the next step raises; if not, the run goes on. Proved if the kernel density is computed as a positive number everywhere: then the run is that of the model over the reals, and all weights in the journal are positive numbers."
  },
  {
   "property": "C228",
   "status": "partial",
   "theorems": [
    "Verif.Nan.SmcDensities.C228_prob",
    "Verif.Nan.SmcDensities.C228_hits",
    "Verif.Nan.SmcDensities.C228_subsim",
    "Verif.Nan.SmcDensities.C228_run_partial",
    "Verif.Nan.SmcDensities.C228_move_partial",
    "Verif.Nan.SmcDensities.C228_violated",
    "Verif.Nan.SmcDensities.C228_balance"
   ],
   "note": "Violated by the standard kernel of SMCABC: if a density in a denominator is computed as zero the acceptance probability is min(1, NaN) or min(1, inf), which is 1 in Python, so that simulations that are too far are accepted for sure; a run can end with all weight on such a particle. Proved: the probability is always a number between 0 and 1; the r-hit kernels and ABCsubsim never accept a simulation that is too far, for all densities; the standard kernel does not if no density in a denominator is computed as zero, and then the whole run is that of the model over the reals."
  },
  {
   "property": "C229",
   "status": "partial",
   "theorems": [
    "Verif.Sabc.C229_root",
    "Verif.Sabc.C229_temperature",
    "Verif.Sabc.C229_move_partial",
    "Verif.Sabc.C229_stuck_violated",
    "Verif.Sabc.C229_minimum_violated"
   ],
   "note": "Violated when the threshold is zero: _schedule gives zero for a mean below 1e-100, and then a proposal is accepted only if its redefined distance is strictly smaller, while redefined distances of exactly the smallest first try are zero. If after two or more steps all particles have the smallest distance of the first tries, the population never changes again, whatever is proposed (C229_minimum_violated, with a run that gets there); the same from the first step on if all distances of the first tries are equal, as with discrete data (C229_stuck_violated, with a run in which every proposal matches the observation exactly). Proved: the equation has exactly one root that is not negative, between 0 and the mean; the threshold is monotone; while it is positive such proposals are accepted. That fsolve ends at the root is trusted."
  },
  {
   "property": "C230",
   "status": "proved",
   "theorems": [
    "Verif.Sabc.C230_probabilities",
    "Verif.Sabc.C230_mean",
    "Verif.Sabc.C230_large",
    "Verif.Sabc.C230_run"
   ],
   "note": "The probabilities are those of the specification of C102 (Spec.Probabilities), which every run of SABC follows by C102_run. C230_mean: average over all outcomes of as many independent draws as there are particles."
  },
  {
   "property": "C231",
   "status": "partial",
   "theorems": [
    "Verif.Journal.Bootstrap.C231_bootstrap_partial",
    "Verif.Journal.Bootstrap.C231_subsample_partial",
    "Verif.Journal.Bootstrap.C231_subsample_violated",
    "Verif.Journal.Bootstrap.C231_error"
   ],
   "note": "Violated by resampling without replacement from a journal with unequal weights, which is documented to take the weights into account: with as many samples as particles every outcome has the unweighted mean, and the weights are lost (proved for all journals, with a concrete one). Proved: equality with replacement for all weights and all numbers of samples, and without replacement for equal weights. Trusted: rng.choice draws independently with the given probabilities, and without replacement with equal probabilities every selection is equally likely."
  },
  {
   "property": "C232",
   "status": "partial",
   "theorems": [
    "Verif.Smc.C232_parameters_partial",
    "Verif.Smc.C232_pairs",
    "Verif.Smc.C232_simulations_violated"
   ],
   "note": "Violated for simulated data: the parameters are resampled, the simulations are not. Whatever the weights were and whatever is drawn, every simulation has weight 1/n afterwards, also one of weight zero that is too far from the observation (C232_simulations_violated, with a population where all weight is on near data before and half of it after); on average the pairs become all combinations of weighted parameters with unweighted simulations (C232_pairs). Proved: averages of functions of the parameters are kept. Trusted: rng.choice draws independently with the given probabilities."
  },
  {
   "property": "C233",
   "status": "partial",
   "theorems": [
    "Verif.Smc.C233_near_partial",
    "Verif.Smc.C233_near_violated"
   ],
   "note": "Violated when the population is resampled: the simulations stay where they are and get the weight 1/n, so that the journal returned by a run with two particles has weight 1/2 on a particle at distance 2 with threshold 0.9995 (C233_near_violated). Proved for all three kernels and all runs that never resample (Del Moral version with resample at most 0). Trusted: a draw with probability zero fails, and a random choice returns one of the choices."
  },
  {
   "property": "C234",
   "status": "partial",
   "theorems": [
    "Verif.Best.C234_rsmcabc",
    "Verif.Best.C234_apmcabc_partial",
    "Verif.Best.C234_apmcabc_violated",
    "Verif.Best.C234_subsim_violated"
   ],
   "note": "Proved for RSMCABC without conditions, and for APMCABC if n_samples * alpha rounds to at least one. Violated for APMCABC with smaller alpha: n_samples particles are drawn in every step and replace the population although particles lie below the threshold (two samples, alpha = 1/4). Violated for ABCsubsim: the particles that chains start from are simulated again and their old distances are dropped, so the smallest distance goes from 1 to 6 in an example."
  },
  {
   "property": "C235",
   "status": "proved",
   "theorems": [
    "Verif.Support.C235_smcabc",
    "Verif.Support.C235_rsmcabc",
    "Verif.Support.C235_apmcabc",
    "Verif.Support.C235_sabc",
    "Verif.Support.C235_subsim",
    "Verif.Support.C235_pmcabc",
    "Verif.Support.C235_pmc"
   ],
   "note": "For RSMCABC with the constant c of the number of moves in (0, 1]. With a threshold at or above the declared maximum of the distance PMCABC and RSMCABC return what the graph held before, which is excluded here (see C110). For PMC from arbitrary starting points, and except for populations that a journal file already had. MCMCMetropoliHastings is in C52."
  },
  {
   "property": "C236",
   "status": "proved",
   "theorems": [
    "Verif.Models.C236_bounds",
    "Verif.Models.C236_draws",
    "Verif.Models.C236_refused",
    "Verif.Models.C236_equal_bounds"
   ],
   "note": "Bounds of equal length, which the constructor demands. C236_equal_bounds: equal bounds are accepted although the density then divides by zero, which C73 excludes."
  }
 ]
}
