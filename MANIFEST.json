{
 "claims": [
  {
   "property": "C01",
   "status": "proved",
   "theorems": [
    "Bilby.Props.uniform_inverse_cdf",
    "Bilby.Props.power_law_inverse_cdf",
    "Bilby.Props.log_uniform_inverse_cdf",
    "Bilby.Props.symmetric_log_uniform_inverse_cdf",
    "Bilby.Props.cosine_inverse_cdf",
    "Bilby.Props.sine_inverse_cdf",
    "Bilby.Props.triangular_inverse_cdf",
    "Bilby.Props.exponential_inverse_cdf",
    "Bilby.Props.exponential_endpoint",
    "Bilby.Props.logistic_inverse_cdf",
    "Bilby.Props.logistic_endpoints",
    "Bilby.Props.cauchy_inverse_cdf",
    "Bilby.Props.cauchy_endpoints",
    "Bilby.Props.gaussian_inverse_cdf",
    "Bilby.Props.gaussian_endpoints",
    "Bilby.Props.truncated_gaussian_inverse_cdf",
    "Bilby.Props.truncated_gaussian_endpoints",
    "Bilby.Props.half_gaussian_inverse_cdf",
    "Bilby.Props.half_gaussian_endpoint",
    "Bilby.Props.log_normal_inverse_cdf",
    "Bilby.Props.gamma_inverse_cdf",
    "Bilby.Props.chi_squared_admissible",
    "Bilby.Props.student_t_inverse_cdf",
    "Bilby.Props.student_t_endpoints",
    "Bilby.Props.beta_inverse_cdf",
    "Bilby.Props.fermi_dirac_inverse_cdf",
    "Bilby.Props.fermi_dirac_finite",
    "Bilby.Props.chi_in_plane_inverse_cdf"
   ],
   "note": "All analytic priors; priors with infinite ends: probabilities in the open (half-open) interval plus a separate endpoint theorem."
  },
  {
   "property": "C02",
   "status": "partial",
   "theorems": [
    "Bilby.Props.interped_cdf_integral",
    "Bilby.Props.uniform_density",
    "Bilby.Props.power_law_density_partial",
    "Bilby.Props.log_uniform_density_partial",
    "Bilby.Props.symmetric_log_uniform_density",
    "Bilby.Props.cosine_density_partial",
    "Bilby.Props.cosine_density_default",
    "Bilby.Props.cosine_density_violated",
    "Bilby.Props.sine_density_partial",
    "Bilby.Props.sine_density_default",
    "Bilby.Props.sine_density_violated",
    "Bilby.Props.triangular_density",
    "Bilby.Props.exponential_density",
    "Bilby.Props.logistic_density",
    "Bilby.Props.cauchy_density",
    "Bilby.Props.gaussian_density",
    "Bilby.Props.truncated_gaussian_density",
    "Bilby.Props.half_gaussian_density",
    "Bilby.Props.log_normal_density",
    "Bilby.Props.gamma_density",
    "Bilby.Props.gamma_prob_finite",
    "Bilby.Props.chi_squared_admissible",
    "Bilby.Props.student_t_density",
    "Bilby.Props.beta_density",
    "Bilby.Props.beta_prob_finite",
    "Bilby.Props.fermi_dirac_inverse_cdf",
    "Bilby.Props.chi_in_plane_sampling"
   ],
   "note": "Full for all priors except: PowerLaw (cdf wrong below the minimum for non-positive arguments) and Cosine/Sine with non-default bounds (prob not normalised); both violations proved."
  },
  {
   "property": "C03",
   "status": "partial",
   "theorems": [
    "Bilby.Props.categorical_ln_prob",
    "Bilby.Props.mass_ratio_ln_prob",
    "Bilby.Props.uniform_ln_prob",
    "Bilby.Props.power_law_ln_prob_partial",
    "Bilby.Props.power_law_ln_prob_violated",
    "Bilby.Props.log_uniform_ln_prob",
    "Bilby.Props.symmetric_log_uniform_ln_prob_partial",
    "Bilby.Props.symmetric_log_uniform_ln_prob_violated",
    "Bilby.Props.cosine_ln_prob",
    "Bilby.Props.sine_ln_prob",
    "Bilby.Props.triangular_ln_prob",
    "Bilby.Props.exponential_ln_prob",
    "Bilby.Props.logistic_ln_prob",
    "Bilby.Props.cauchy_ln_prob",
    "Bilby.Props.gaussian_ln_prob",
    "Bilby.Props.truncated_gaussian_ln_prob",
    "Bilby.Props.half_gaussian_ln_prob",
    "Bilby.Props.log_normal_ln_prob",
    "Bilby.Props.gamma_ln_prob",
    "Bilby.Props.chi_squared_admissible",
    "Bilby.Props.student_t_ln_prob",
    "Bilby.Props.beta_ln_prob",
    "Bilby.Props.fermi_dirac_ln_prob",
    "Bilby.Props.slab_spike_ln_prob"
   ],
   "note": "Full except PowerLaw at 0 with minimum 0 and SymmetricLogUniform off its support; both violations proved."
  },
  {
   "property": "C04",
   "status": "partial",
   "theorems": [
    "Bilby.Props.uniform_sampling",
    "Bilby.Props.power_law_sampling_partial",
    "Bilby.Props.symmetric_log_uniform_sampling",
    "Bilby.Props.cosine_sampling",
    "Bilby.Props.sine_sampling",
    "Bilby.Props.triangular_sampling",
    "Bilby.Props.exponential_sampling",
    "Bilby.Props.logistic_sampling",
    "Bilby.Props.cauchy_sampling",
    "Bilby.Props.gaussian_sampling",
    "Bilby.Props.truncated_gaussian_sampling",
    "Bilby.Props.half_gaussian_sampling",
    "Bilby.Props.log_normal_sampling",
    "Bilby.Props.gamma_sampling",
    "Bilby.Props.chi_squared_admissible",
    "Bilby.Props.student_t_sampling",
    "Bilby.Props.beta_sampling",
    "Bilby.Props.fermi_dirac_sampling"
   ],
   "note": "Sampling law as the law of rescale applied to a uniform variate; PowerLaw uses the corrected cdf."
  },
  {
   "property": "C05",
   "status": "partial",
   "theorems": [
    "Bilby.Props.uniform_cdf_monotone",
    "Bilby.Props.uniform_cdf_saturates",
    "Bilby.Props.power_law_cdf_saturates_partial",
    "Bilby.Props.power_law_cdf_violated",
    "Bilby.Props.symmetric_log_uniform_cdf_monotone",
    "Bilby.Props.symmetric_log_uniform_cdf_saturates",
    "Bilby.Props.cosine_cdf_monotone",
    "Bilby.Props.cosine_cdf_saturates",
    "Bilby.Props.sine_cdf_monotone",
    "Bilby.Props.sine_cdf_saturates",
    "Bilby.Props.triangular_cdf_monotone",
    "Bilby.Props.triangular_cdf_saturates",
    "Bilby.Props.exponential_cdf_monotone",
    "Bilby.Props.exponential_cdf_low",
    "Bilby.Props.logistic_cdf_monotone",
    "Bilby.Props.cauchy_cdf_monotone",
    "Bilby.Props.gaussian_cdf_monotone",
    "Bilby.Props.truncated_gaussian_cdf_monotone",
    "Bilby.Props.truncated_gaussian_cdf_saturates",
    "Bilby.Props.half_gaussian_cdf_monotone",
    "Bilby.Props.log_normal_cdf_monotone",
    "Bilby.Props.gamma_cdf_monotone",
    "Bilby.Props.chi_squared_admissible",
    "Bilby.Props.student_t_cdf_monotone",
    "Bilby.Props.beta_cdf_monotone",
    "Bilby.Props.beta_cdf_saturates"
   ],
   "note": "Full except PowerLaw below the minimum (violation proved)."
  },
  {
   "property": "C06",
   "status": "proved",
   "theorems": [
    "Bilby.Props.slab_spike_constructor",
    "Bilby.Props.slab_spike_sampling",
    "Bilby.Props.slab_spike_mass",
    "Bilby.Props.slab_spike_conditional",
    "Bilby.Props.slab_spike_cdf",
    "Bilby.Props.slab_spike_inverse",
    "Bilby.Props.slab_spike_ln_prob"
   ],
   "note": "For constructed priors over any slab whose rescale inverts a monotone cdf; setters are C68."
  },
  {
   "property": "C07",
   "status": "partial",
   "theorems": [
    "Bilby.Props.interped_table_partial",
    "Bilby.Props.interped_bounds_table",
    "Bilby.Props.interped_proportional",
    "Bilby.Props.interped_cdf_integral",
    "Bilby.Props.interped_integral_one",
    "Bilby.Props.interped_history_violated"
   ],
   "note": "Full for all changes of the bounds; with yy assignments as long as the bounds stay inside the last assigned table; otherwise violation proved (table becomes identically zero)."
  },
  {
   "property": "C08",
   "status": "partial",
   "theorems": [
    "Bilby.Props.categorical_prob_partial",
    "Bilby.Props.categorical_ln_prob",
    "Bilby.Props.categorical_prob_violated",
    "Bilby.Props.categorical_sampling_partial",
    "Bilby.Props.categorical_range_partial",
    "Bilby.Props.categorical_range_violated"
   ],
   "note": "Double precision of the upper end is modelled: n<=16 prob correct; n>=17 the last category has prob 0 (violation for every such n); rescale(1)=n violation; sampling law up to 2e-15."
  },
  {
   "property": "C09",
   "status": "proved",
   "theorems": [
    "Bilby.Props.key_lists_membership",
    "Bilby.Props.key_partition",
    "Bilby.Props.sampler_keys",
    "Bilby.Props.numbers_become_fixed"
   ],
   "note": "Full, for dictionaries whose entries are priors with distinct keys; numbers are first converted."
  },
  {
   "property": "C10",
   "status": "partial",
   "theorems": [
    "Bilby.Props.constrained_sampling",
    "Bilby.Props.constrained_sampling_returns",
    "Bilby.Props.constrained_sampling_single",
    "Bilby.Props.copy_conversion_violated"
   ],
   "note": "Whenever sampling returns (and it returns once enough rows are accepted); copy() drops the conversion function (violation proved)."
  },
  {
   "property": "C11",
   "status": "partial",
   "theorems": [
    "Bilby.Props.joint_prob",
    "Bilby.Props.joint_ln_prob_partial",
    "Bilby.Props.joint_prob_rows",
    "Bilby.Props.joint_ln_prob_rows_partial",
    "Bilby.Props.joint_ln_prob_violated"
   ],
   "note": "prob full; ln_prob full for finite densities; violated when a density is +inf and a constraint fails."
  },
  {
   "property": "C12",
   "status": "partial",
   "theorems": [
    "Bilby.Props.normalization_fresh_partial",
    "Bilby.Props.normalization_violated",
    "Bilby.Props.copy_conversion_violated"
   ],
   "note": "Holds until an entry is replaced; violated afterwards because the cached factor is never recomputed."
  },
  {
   "property": "C13",
   "status": "proved",
   "theorems": [
    "Bilby.Props.conditional_order"
   ],
   "note": "Full, over every history of construction, edits and calls; each unresolvable set of keys is reported."
  },
  {
   "property": "C14",
   "status": "partial",
   "theorems": [
    "Bilby.Props.conditional_rescale_no_edits_partial",
    "Bilby.Props.conditional_rescale_edits_partial",
    "Bilby.Props.conditional_rescale_violated",
    "Bilby.Props.conditional_rescale_fixed_violated"
   ],
   "note": "Holds without edits and for the edits stated; violated after an edit that changes the order and after a fixed parameter was evaluated elsewhere."
  },
  {
   "property": "C15",
   "status": "partial",
   "theorems": [
    "Bilby.Props.conditional_prob_partial",
    "Bilby.Props.conditional_ln_prob_partial",
    "Bilby.Props.conditional_prob_history_partial",
    "Bilby.Props.conditional_prob_violated"
   ],
   "note": "Complete samples and condition functions that set a fixed set of attributes; violated otherwise."
  },
  {
   "property": "C16",
   "status": "proved",
   "theorems": [
    "Bilby.Props.dirichlet_simplex",
    "Bilby.Props.dirichlet_density"
   ],
   "note": "Simplex membership for every history of calls; density constant (n-1)!."
  },
  {
   "property": "C17",
   "status": "partial",
   "theorems": [
    "Bilby.Props.repr_arguments_partial",
    "Bilby.Props.repr_call",
    "Bilby.Props.prior_file_round_trip",
    "Bilby.Props.repr_nested_violated",
    "Bilby.Props.repr_double_removal_violated",
    "Bilby.Props.repr_list_violated",
    "Bilby.Props.repr_space_violated"
   ],
   "note": "Round trip for arguments whose printed values contain no comma outside one level of brackets; violated for nested brackets, two bracketed arguments sharing a removal, lists and strings with spaces. Evaluation of a single argument string (Python eval) is not modelled."
  },
  {
   "property": "C18",
   "status": "proved",
   "theorems": [
    "Bilby.Props.periodic_boundary",
    "Bilby.Props.periodic_boundary_unique",
    "Bilby.Props.reflective_boundary",
    "Bilby.Props.point_boundaries",
    "Bilby.Props.unit_cube_boundaries"
   ],
   "note": "Full: periodic and reflective maps for every real, also per parameter and on the unit cube."
  },
  {
   "property": "C19",
   "status": "partial",
   "theorems": [
    "Bilby.Props.jump_periodic",
    "Bilby.Props.jump_reflecting_partial",
    "Bilby.Props.jump_reflecting_violated"
   ],
   "note": "Periodic part full; reflective part except at odd multiples of the range beyond the maximum, where the point is left outside (violation proved)."
  },
  {
   "property": "C20",
   "status": "partial",
   "theorems": [
    "Bilby.Props.chain_is_log",
    "Bilby.Props.chain_samples",
    "Bilby.Props.chain_negative_index_violated"
   ],
   "note": "Full for appends, non-negative indices and negative indices down to the first sample; index -(n+1) returns a zero row instead of an error (violation proved)."
  },
  {
   "property": "C21",
   "status": "partial",
   "theorems": [
    "Bilby.Props.mcmc_rows_valid",
    "Bilby.Props.mcmc_step",
    "Bilby.Props.ensemble_rows_valid_partial",
    "Bilby.Props.ensemble_infinite_likelihood_violated"
   ],
   "note": "All move types except ensembles in full; ensembles for likelihoods that are never +inf (violated otherwise)."
  },
  {
   "property": "C22",
   "status": "proved",
   "theorems": [
    "Bilby.Props.mh_detailed_balance"
   ],
   "note": "Full detailed balance of the Metropolis-Hastings step for every target, temperature and proposal density."
  },
  {
   "property": "C23",
   "status": "proved",
   "theorems": [
    "Bilby.Props.swap_detailed_balance"
   ],
   "note": "Full detailed balance of the swap between neighbouring temperatures."
  },
  {
   "property": "C24",
   "status": "partial",
   "theorems": [
    "Bilby.Props.swap_exchanges_partial",
    "Bilby.Props.swap_continuation_violated"
   ],
   "note": "The swapped rows are exchanged exactly; violated for the state from which the chains continue."
  },
  {
   "property": "C25",
   "status": "partial",
   "theorems": [
    "Bilby.Props.ladder_partial",
    "Bilby.Props.ladder_crossing_violated"
   ],
   "note": "Order kept for all but the last pair; the last pair can cross (violation proved)."
  },
  {
   "property": "C26",
   "status": "proved",
   "theorems": [
    "Bilby.Props.proposal_cycle",
    "Bilby.Props.jump_cycle"
   ],
   "note": "Full over every number of calls, for both proposal cycles."
  },
  {
   "property": "C27",
   "status": "partial",
   "theorems": [
    "Bilby.Props.uniform_proposal_infinite_partial",
    "Bilby.Props.uniform_proposal_violated",
    "Bilby.Props.uniform_proposal_value_guard_partial"
   ],
   "note": "Holds for unbounded priors (falls back to the prior draw); the drawn value is not within the prior bounds otherwise (violation proved)."
  },
  {
   "property": "C28",
   "status": "proved",
   "theorems": [
    "Bilby.Props.stretch_range",
    "Bilby.Props.stretch_law",
    "Bilby.Props.stretch_law_total",
    "Bilby.Props.stretch_move",
    "Bilby.Props.stretch_detailed_balance",
    "Bilby.Props.ensemble_stretch_law",
    "Bilby.Props.ensemble_stretch_detailed_balance"
   ],
   "note": "Range, density, law and detailed balance for both stretch implementations."
  },
  {
   "property": "C29",
   "status": "partial",
   "theorems": [
    "Bilby.Props.fixed_walk",
    "Bilby.Props.track_walk_partial",
    "Bilby.Props.track_walk_violated",
    "Bilby.Props.act_walk_partial",
    "Bilby.Props.act_walk_fresh",
    "Bilby.Props.act_walk_equal_violated",
    "Bilby.Props.act_walk_no_acceptance_violated"
   ],
   "note": "Fixed-length walk full; acceptance tracking for nact ≤ maxmcmc (violated otherwise); cached walk not below the threshold over every history, strictly above it directly after a rebuild (violated for equality and for walks without acceptance)."
  },
  {
   "property": "C30",
   "status": "partial",
   "theorems": [
    "Bilby.Props.checkpoint_crash",
    "Bilby.Props.checkpoint_history",
    "Bilby.Props.checkpoint_power_loss_violated"
   ],
   "note": "Process crash at every primitive action and over every history of attempts; negation for power loss, since nothing is synced to disk."
  },
  {
   "property": "C31",
   "status": "partial",
   "theorems": [
    "Bilby.Props.save_keeps_old",
    "Bilby.Props.save_old_directory",
    "Bilby.Props.save_twice",
    "Bilby.Props.save_fallback_violated"
   ],
   "note": "File, directory and repeated saves; negation for the fallback pickle file, which replaces an existing file."
  },
  {
   "property": "C32",
   "status": "partial",
   "theorems": [
    "Bilby.Props.json_round_trip",
    "Bilby.Props.json_result_round_trip",
    "Bilby.Props.json_tuple_violated",
    "Bilby.Props.json_nested_priors_violated",
    "Bilby.Props.json_frame_index_violated",
    "Bilby.Props.json_key_violated",
    "Bilby.Props.json_key_collision_violated",
    "Bilby.Props.json_empty_array_violated",
    "Bilby.Props.json_tag_collision_violated",
    "Bilby.Props.json_series_violated",
    "Bilby.Props.json_lambda_violated",
    "Bilby.Props.json_unknown_prior"
   ],
   "note": "All values of the supported grammar, any nesting, and whole results with their prior dictionary; negations for tuples, non-string keys, tag collisions, frame and series indices, empty leading dimensions, local functions and prior dictionaries outside the `priors` attribute."
  },
  {
   "property": "C33",
   "status": "partial",
   "theorems": [
    "Bilby.Props.hdf5_round_trip_partial",
    "Bilby.Props.hdf5_none_text_violated",
    "Bilby.Props.hdf5_none_in_list_violated",
    "Bilby.Props.hdf5_empty_dict_violated",
    "Bilby.Props.hdf5_number_list_violated",
    "Bilby.Props.hdf5_bool_list_violated",
    "Bilby.Props.hdf5_tuple_violated",
    "Bilby.Props.hdf5_tuple_order_violated",
    "Bilby.Props.hdf5_name_clash_violated",
    "Bilby.Props.hdf5_slash_violated",
    "Bilby.Props.hdf5_frame_violated",
    "Bilby.Props.hdf5_function_violated",
    "Bilby.Props.hdf5_timedelta_violated",
    "Bilby.Props.hdf5_text_grid_violated",
    "Bilby.Props.hdf5_priors_partial",
    "Bilby.Props.hdf5_priors_violated"
   ],
   "note": "Round trip on the faithful subset at any depth; negations for each lossy type and for the class of the prior dictionary."
  },
  {
   "property": "C34",
   "status": "partial",
   "theorems": [
    "Bilby.Props.save_then_read",
    "Bilby.Props.unknown_extension_rejected",
    "Bilby.Props.save_other_label",
    "Bilby.Props.save_label_collision_violated",
    "Bilby.Props.from_pickle_violated",
    "Bilby.Props.save_filename_violated",
    "Bilby.Props.save_filename_then_read"
   ],
   "note": "Save/read agreement for every directory, label, extension and gzip flag; negations for from_pickle, absolute labels and file names whose suffix differs from the extension."
  },
  {
   "property": "C35",
   "status": "proved",
   "theorems": [
    "Bilby.Props.rejection_rows",
    "Bilby.Props.rejection_extremes",
    "Bilby.Props.rejection_probability",
    "Bilby.Props.reweight_rows"
   ],
   "note": "Full: kept rows, order, extremes and keep probability for all weights and draws."
  },
  {
   "property": "C36",
   "status": "partial",
   "theorems": [
    "Bilby.Props.weights_uninterrupted",
    "Bilby.Props.weights_resume_partial",
    "Bilby.Props.weights_history_partial",
    "Bilby.Props.weights_resume_violated",
    "Bilby.Props.weights_torn_violated"
   ],
   "note": "Exact condition for a correct resume; every history when the first row has the smallest |log likelihood|; negations for the general resume (zeros instead of priors) and for a file torn by a crash during its write."
  },
  {
   "property": "C37",
   "status": "proved",
   "theorems": [
    "Bilby.Props.reweight_evidence",
    "Bilby.Props.reweight_rows",
    "Bilby.Props.reweight_identity",
    "Bilby.Props.reweight_nested_evidence"
   ],
   "note": "Posterior and nested-sample evidence; conversion function and resume file not part of this theorem."
  },
  {
   "property": "C38",
   "status": "partial",
   "theorems": [
    "Bilby.Props.combine_refuses",
    "Bilby.Props.combine_accepts",
    "Bilby.Props.combine_evidence",
    "Bilby.Props.combine_nested_rows",
    "Bilby.Props.combine_nested_probability",
    "Bilby.Props.combine_mcmc_rows",
    "Bilby.Props.combine_priors_violated"
   ],
   "note": "Refusal, acceptance, mean evidence, kept rows and keep probability; negation when the first result has an empty prior dictionary."
  },
  {
   "property": "C39",
   "status": "proved",
   "theorems": [
    "Bilby.Props.credible_level",
    "Bilby.Props.credible_level_unweighted",
    "Bilby.Props.credible_level_missing"
   ],
   "note": "Full, weighted and unweighted, including missing parameters."
  },
  {
   "property": "C40",
   "status": "partial",
   "theorems": [
    "Bilby.Props.joint_sum_partial",
    "Bilby.Props.joint_sum",
    "Bilby.Props.joint_isolated",
    "Bilby.Props.joint_sampler_call",
    "Bilby.Props.joint_nested_violated",
    "Bilby.Props.fakeSampler_plain",
    "Bilby.Props.joint_fake_sampler_violated"
   ],
   "note": "Sum and isolation for every list of plain components and update history; negations for nested joint likelihoods and for the fake sampler's replaced dictionary."
  },
  {
   "property": "C41",
   "status": "partial",
   "theorems": [
    "Bilby.Props.gaussian_likelihood",
    "Bilby.Props.gaussian_sigma",
    "Bilby.Props.exponential_likelihood",
    "Bilby.Props.exponential_negative_mean",
    "Bilby.Props.poisson_likelihood",
    "Bilby.Props.poisson_refuses",
    "Bilby.Props.poisson_zero_rate_violated",
    "Bilby.Props.student_likelihood",
    "Bilby.Props.multinomial_likelihood",
    "Bilby.Props.multinomial_noise",
    "Bilby.Props.bimodal_likelihood"
   ],
   "note": "Gaussian, exponential, Poisson, Student-t, multinomial and bimodal likelihoods; negation for zero Poisson rates."
  },
  {
   "property": "C42",
   "status": "proved",
   "theorems": [
    "Bilby.Props.logtrapzexp_many",
    "Bilby.Props.logtrapzexp_one",
    "Bilby.Props.logtrapzexp_constant",
    "Bilby.Props.logsumexp_no_overflow"
   ],
   "note": "Full for non-negative steps, array or scalar; scipy's max-shift is modelled, so the overflow claim is a theorem."
  },
  {
   "property": "C43",
   "status": "proved",
   "theorems": [
    "Bilby.Props.kish_value",
    "Bilby.Props.kish_bounds",
    "Bilby.Props.kish_eq_iff",
    "Bilby.Props.kish_shift"
   ],
   "note": "Full: value, bounds, equality case and invariance."
  },
  {
   "property": "C44",
   "status": "partial",
   "theorems": [
    "Bilby.Props.time_series",
    "Bilby.Props.frequency_series_partial",
    "Bilby.Props.series_reject",
    "Bilby.Props.frequency_series_odd_violated",
    "Bilby.Props.time_series_short_violated",
    "Bilby.Props.time_series_recover",
    "Bilby.Props.time_series_recover_close",
    "Bilby.Props.frequency_series_recover_partial",
    "Bilby.Props.frequency_recover_odd_violated"
   ],
   "note": "Exact for even sample counts; negations for odd counts and for products just below an integer."
  },
  {
   "property": "C45",
   "status": "partial",
   "theorems": [
    "Bilby.Props.coupled_consistent_partial",
    "Bilby.Props.coupled_settings",
    "Bilby.Props.coupled_time_array_violated",
    "Bilby.Props.coupled_frequency_array_violated",
    "Bilby.Props.coupled_rejected_array_violated"
   ],
   "note": "Invariant for harmless histories and for histories without array assignments; three negations."
  },
  {
   "property": "C46",
   "status": "partial",
   "theorems": [
    "Bilby.Props.max_likelihood_violated",
    "Bilby.Props.max_likelihood_partial"
   ],
   "note": "Negation for every list ending in a finite outcome; partial theorem gives the exact returned element."
  },
  {
   "property": "C47",
   "status": "proved",
   "theorems": [
    "Bilby.Props.fim_symmetric",
    "Bilby.Props.fim_quadratic"
   ],
   "note": "Full for real arithmetic."
  },
  {
   "property": "C48",
   "status": "proved",
   "theorems": [
    "Bilby.Props.grid_marginalize",
    "Bilby.Props.grid_order",
    "Bilby.Props.grid_evidence",
    "Bilby.Props.grid_refuses"
   ],
   "note": "Proved for ascending grid points: marginalising in any order gives the same array, and marginalising everything gives the log evidence."
  },
  {
   "property": "C49",
   "status": "partial",
   "theorems": [
    "Bilby.Props.total_mass_ratio",
    "Bilby.Props.total_mass_ratio_back",
    "Bilby.Props.chirp_mass_ratio",
    "Bilby.Props.chirp_mass_ratio_back",
    "Bilby.Props.symmetric_mass_ratio",
    "Bilby.Props.symmetric_mass_ratio_back",
    "Bilby.Props.chirp_total_mass_eta",
    "Bilby.Props.chirp_primary_ratio",
    "Bilby.Props.mass1_chirp_ratio",
    "Bilby.Props.mass2_chirp_ratio_partial",
    "Bilby.Props.mass2_chirp_ratio_violated"
   ],
   "note": "All conversions invert each other over the reals. The exception is `mass_2_and_chirp_mass_to_mass_ratio` on numpy numbers, which is `nan` for mass ratios below one third."
  },
  {
   "property": "C50",
   "status": "partial",
   "theorems": [
    "Bilby.Props.lambda_tilde_formula",
    "Bilby.Props.symmetric_round_trip",
    "Bilby.Props.lambda_tilde_delta_partial",
    "Bilby.Props.lambda_tilde_delta_range",
    "Bilby.Props.lambda_tilde_delta_violated",
    "Bilby.Props.lambda_tilde_only"
   ],
   "note": "Inverse for all ordered positive masses except at one symmetric mass ratio (about 0.0194), where the denominator is zero; that value is not met for mass ratios of at least 1/40."
  },
  {
   "property": "C51",
   "status": "partial",
   "theorems": [
    "Bilby.Props.masses_keep",
    "Bilby.Props.masses_only",
    "Bilby.Props.masses_determined_partial",
    "Bilby.Props.masses_undetermined_partial",
    "Bilby.Props.masses_undetermined_violated",
    "Bilby.Props.masses_secondary_violated",
    "Bilby.Props.mass_parameters_partial"
   ],
   "note": "Supplied keys always keep their values; determined masses are added with the right values (except `nan` for secondary mass and chirp mass alone with a mass ratio below one third); with only the secondary mass present the code raises although `require_add` is false."
  },
  {
   "property": "C52",
   "status": "partial",
   "theorems": [
    "Bilby.Props.source_masses_scaled_partial",
    "Bilby.Props.source_masses_converted_partial",
    "Bilby.Props.source_comoving_violated",
    "Bilby.Props.convert_distance"
   ],
   "note": "Proved for redshift and luminosity distance, for any source-frame parameters that determine the masses; with a comoving distance the conversion raises `KeyError`."
  },
  {
   "property": "C53",
   "status": "proved",
   "theorems": [
    "Bilby.Props.inner_conj",
    "Bilby.Props.inner_linear",
    "Bilby.Props.inner_positive",
    "Bilby.Props.inner_cauchy_schwarz",
    "Bilby.Props.optimal_snr_homogeneous",
    "Bilby.Props.matched_filter_bound",
    "Bilby.Props.inner_product_agrees",
    "Bilby.Props.overlap_range",
    "Bilby.Props.band_norm_le"
   ],
   "note": "Full over complex numbers; power spectral densities may be infinite outside the band."
  },
  {
   "property": "C54",
   "status": "partial",
   "theorems": [
    "Bilby.Props.request_new_parameters",
    "Bilby.Props.request_fresh_partial",
    "Bilby.Props.request_after_settings_violated",
    "Bilby.Props.request_same_model_violated",
    "Bilby.Props.request_edited_violated"
   ],
   "note": "Proved for all histories without changes of duration, sampling frequency, start time or arrays, and for any history if the parameters differ from those of the cached waveform; proved negations otherwise, also for one function serving both domains and for waveforms changed in place."
  },
  {
   "property": "C55",
   "status": "partial",
   "theorems": [
    "Bilby.Props.lookup_file_partial",
    "Bilby.Props.lookup_missing_key",
    "Bilby.Props.lookup_created",
    "Bilby.Props.lookup_reuse",
    "Bilby.Props.lookup_dictionary_violated",
    "Bilby.Props.lookup_tolerance_violated"
   ],
   "note": "A file whose stored settings match is used and otherwise the table is rebuilt; a table given as dictionary is used without any check of its settings, and priors that differ by less than the absolute tolerance of np.allclose count as equal. Interpolation itself is not modelled."
  },
  {
   "property": "C56",
   "status": "partial",
   "theorems": [
    "Bilby.Props.likelihood_writes",
    "Bilby.Props.likelihood_restores",
    "Bilby.Props.jitter_needs_geocent",
    "Bilby.Props.likelihood_repeatable",
    "Bilby.Props.likelihood_exception_violated",
    "Bilby.Props.likelihood_time_reference_violated",
    "Bilby.Props.time_sample_parameters_violated"
   ],
   "note": "proved: which keys an evaluation writes, restoration with geocentric reference and sky frame (jitter included), repeatability for every reference; violated after an exception, for other time references and for the time reconstruction"
  },
  {
   "property": "C57",
   "status": "partial",
   "theorems": [
    "Bilby.Props.mask_after_limits_partial",
    "Bilby.Props.mask_after_data_partial",
    "Bilby.Props.mask_stale_violated",
    "Bilby.Props.maximum_frequency_lost_violated",
    "Bilby.Props.notch_appended_violated"
   ],
   "note": "Proved for any state after the limits are set, and for new objects; proved negations after a change of data, for the lowered maximum frequency and for notches added in place."
  },
  {
   "property": "C58",
   "status": "proved",
   "theorems": [
    "Bilby.Props.geometry_fresh",
    "Bilby.Props.geometry_reads_settings",
    "Bilby.Props.vertex_on_ellipsoid"
   ],
   "note": "Full; the arm and tensor formulas of bilby_cython are parameters."
  },
  {
   "property": "C59",
   "status": "partial",
   "theorems": [
    "Bilby.Props.psd_segment_kept_violated",
    "Bilby.Props.psd_segment_partial"
   ],
   "note": "Negation: the segment is never removed from data at times that are not negative."
  },
  {
   "property": "C60",
   "status": "partial",
   "theorems": [
    "Bilby.Props.hyper_prob_one_data_partial",
    "Bilby.Props.hyper_prob_uncached_partial",
    "Bilby.Props.hyper_prob_new_parameters_partial",
    "Bilby.Props.hyper_keyword_arguments_violated",
    "Bilby.Props.hyper_other_data_violated",
    "Bilby.Props.posterior_weights_partial",
    "Bilby.Props.posterior_weights_violated"
   ],
   "note": "the cache of the hyper-prior model is keyed on the parameters only: proved for one data set; violated for other data, for keyword arguments and for the weights of a posterior"
  },
  {
   "property": "C61",
   "status": "partial",
   "theorems": [
    "Bilby.Props.run_evidence",
    "Bilby.Props.run_evidence_integral",
    "Bilby.Props.sampling_time_partial",
    "Bilby.Props.sampling_time_violated",
    "Bilby.Props.injection_conversion_partial",
    "Bilby.Props.injection_conversion_violated",
    "Bilby.Props.run_saved"
   ],
   "note": "Evidence, Bayes factor and noise evidence agree for every new result. Sampling times left as numbers by a sampler are read as days, and injection parameters are converted twice for a new run; both negations are proved. Cached results keep what they have."
  },
  {
   "property": "C62",
   "status": "partial",
   "theorems": [
    "Bilby.Props.counter_exact_partial",
    "Bilby.Props.counter_mod",
    "Bilby.Props.counter_progress",
    "Bilby.Props.counter_overflow_violated"
   ],
   "note": "Exact as long as the count stays below 2³¹ (the counter is a 32-bit integer); proved negation beyond that; the count is always right modulo 2³². Every increment completes under any schedule."
  },
  {
   "property": "C63",
   "status": "partial",
   "theorems": [
    "Bilby.Props.translate_group",
    "Bilby.Props.translate_groups",
    "Bilby.Props.sampler_kwargs",
    "Bilby.Props.single_alias",
    "Bilby.Props.sampler_groups_apart",
    "Bilby.Props.polychord_nlives_violated",
    "Bilby.Props.several_aliases_last"
   ],
   "note": "Proved for any groups without common names and checked for six samplers. Polychord's own argument nlives is taken as an alias of nlive."
  },
  {
   "property": "C64",
   "status": "proved",
   "theorems": [
    "Bilby.Props.reorder_values",
    "Bilby.Props.reorder_nodup",
    "Bilby.Props.reorder_length"
   ],
   "note": "Proved for any order and repetition; numbers of samples must agree, as documented. NaN rows (never equal to themselves) are outside the model."
  },
  {
   "property": "C65",
   "status": "partial",
   "theorems": [
    "Bilby.Props.spin_components",
    "Bilby.Props.spin_aligned",
    "Bilby.Props.chi_eff_range",
    "Bilby.Props.chi_p_range",
    "Bilby.Props.spin_azimuth",
    "Bilby.Props.spin_parameters",
    "Bilby.Props.aligned_spin_round_trip",
    "Bilby.Props.in_plane_spin_partial",
    "Bilby.Props.in_plane_spin_violated",
    "Bilby.Props.chi_p_unordered"
   ],
   "note": "Proved under the stated assumption on lalsimulation's rotation; a zero spin given by aligned and in-plane components divides by zero."
  },
  {
   "property": "C66",
   "status": "partial",
   "theorems": [
    "Bilby.Props.strain_domains_partial",
    "Bilby.Props.strain_domains_after_supply_partial",
    "Bilby.Props.time_strain_stale_violated",
    "Bilby.Props.window_factor_stale_violated"
   ],
   "note": "Proved for histories in which the three methods that keep the time-domain strain are used before there is one; negation otherwise."
  },
  {
   "property": "C67",
   "status": "proved",
   "theorems": [
    "Bilby.Props.sky_round_trip",
    "Bilby.Props.sky_direction",
    "Bilby.Props.zenith_azimuth_sky",
    "Bilby.Props.zenith_azimuth_isometry"
   ],
   "note": "Full over the reals; that the imported rotation preserves angles is an assumption."
  },
  {
   "property": "C68",
   "status": "partial",
   "theorems": [
    "Bilby.Props.slab_spike_setter_violated",
    "Bilby.Props.slab_spike_location_violated"
   ],
   "note": "Violated: setter does not refresh the split point."
  },
  {
   "property": "C69",
   "status": "partial",
   "theorems": [
    "Bilby.Props.walks_in_range",
    "Bilby.Props.walks_approach_target",
    "Bilby.Props.walks_converge",
    "Bilby.Props.walks_few_live_violated"
   ],
   "note": "Range and convergence for nlive ≥ 10; division by zero below (violation proved)."
  },
  {
   "property": "C70",
   "status": "partial",
   "theorems": [
    "Bilby.Props.diff_live_partial",
    "Bilby.Props.diff_current_violated"
   ],
   "note": "The current point is not removed (violation proved); distinctness and membership proved."
  },
  {
   "property": "C71",
   "status": "partial",
   "theorems": [
    "Bilby.Props.signal_during_dump_partial",
    "Bilby.Props.signal_during_dump_violated"
   ],
   "note": "A signal before or after a dump is harmless; negation for a signal in between with a non-empty remainder."
  },
  {
   "property": "C72",
   "status": "partial",
   "theorems": [
    "Bilby.Props.save_keeps_kwargs_partial",
    "Bilby.Props.save_mutates_violated"
   ],
   "note": "Holds without callables; negation otherwise."
  },
  {
   "property": "C73",
   "status": "partial",
   "theorems": [
    "Bilby.Props.reweight_input_violated",
    "Bilby.Props.reweight_input_partial"
   ],
   "note": "Violated for every successful call; the partial theorem lists what is untouched."
  },
  {
   "property": "C74",
   "status": "partial",
   "theorems": [
    "Bilby.Props.combine_evidence",
    "Bilby.Props.reweight_bayes_factor_violated"
   ],
   "note": "Holds for combined results; violated by reweight whenever the evidence changes."
  },
  {
   "property": "C75",
   "status": "proved",
   "theorems": [
    "Bilby.Props.ifim_positive"
   ],
   "note": "Full, given the least eigenvalue computed by numpy."
  },
  {
   "property": "C76",
   "status": "partial",
   "theorems": [
    "Bilby.Props.fisher_order_partial",
    "Bilby.Props.fisher_order_violated"
   ],
   "note": "Holds when the orders agree; negation otherwise."
  },
  {
   "property": "C77",
   "status": "proved",
   "theorems": [
    "Bilby.Props.hyper_likelihood_ratio",
    "Bilby.Props.hyper_likelihood_same",
    "Bilby.Props.samples_per_posterior"
   ],
   "note": "all sample sets and evidences; the number of samples per event is the minimum"
  },
  {
   "property": "C78",
   "status": "partial",
   "theorems": [
    "Bilby.Props.gw_log_likelihood",
    "Bilby.Props.gw_log_likelihood_bound",
    "Bilby.Props.noise_likelihood_partial",
    "Bilby.Props.noise_likelihood_violated"
   ],
   "note": "identity for all data; the cached noise value is violated when data are replaced"
  },
  {
   "property": "C79",
   "status": "proved",
   "theorems": [
    "Bilby.Props.detector_response_linear",
    "Bilby.Props.detector_response_delay",
    "Bilby.Props.optimal_snr_delay"
   ],
   "note": "linear, phase and norm statements for all modes and times"
  },
  {
   "property": "C80",
   "status": "partial",
   "theorems": [
    "Bilby.Props.phase_marginal",
    "Bilby.Props.phase_marginal_bounds",
    "Bilby.Props.phase_reconstruction_partial",
    "Bilby.Props.phase_reconstruction_violated"
   ],
   "note": "exact integral identity; the documented sign of the phase convention is violated by the reconstruction"
  },
  {
   "property": "C81",
   "status": "partial",
   "theorems": [
    "Bilby.Props.distance_marginal",
    "Bilby.Props.distance_marginal_reference",
    "Bilby.Props.distance_marginal_between",
    "Bilby.Props.distance_reconstruction",
    "Bilby.Props.rescaled_signal_partial",
    "Bilby.Props.rescaled_signal_violated"
   ],
   "note": "exact identities for the tabulated values; interpolation between entries is not modelled; in-place rescaling violated when repeated"
  },
  {
   "property": "C82",
   "status": "partial",
   "theorems": [
    "Bilby.Props.time_reconstruction_calibration_violated",
    "Bilby.Props.time_array",
    "Bilby.Props.time_array_nyquist_violated",
    "Bilby.Props.time_marginal_partial",
    "Bilby.Props.time_step",
    "Bilby.Props.time_marginal_violated",
    "Bilby.Props.delayed_period",
    "Bilby.Props.reconstruction_time",
    "Bilby.Props.time_reconstruction_partial",
    "Bilby.Props.time_reconstruction_violated"
   ],
   "note": "time grid off by one step (violated), highest frequency dropped (violated), missing factor 4/T in the reconstruction (violated); what holds is proved"
  },
  {
   "property": "C83",
   "status": "partial",
   "theorems": [
    "Bilby.Props.calibration_arrays",
    "Bilby.Props.calibration_time_array",
    "Bilby.Props.calibration_marginal",
    "Bilby.Props.calibration_marginal_recalibrated",
    "Bilby.Props.time_reconstruction_calibration_violated",
    "Bilby.Props.calibration_point_partial",
    "Bilby.Props.calibration_jitter_violated"
   ],
   "note": "mean over curves proved for all settings; reconstruction of the time ignores the curve and weighing of curves ignores the jitter (violated)"
  },
  {
   "property": "C84",
   "status": "partial",
   "theorems": [
    "Bilby.Props.npool_early",
    "Bilby.Props.npool_cpnest_violated",
    "Bilby.Props.npool_own",
    "Bilby.Props.ultranest_resume_violated"
   ],
   "note": "Proved for early translation (dynesty) and samplers without a default; refuted for cpnest and for resume in ultranest."
  },
  {
   "property": "C85",
   "status": "partial",
   "theorems": [
    "Bilby.Props.marginalized_not_sampled_partial",
    "Bilby.Props.marginalized_sampled_raises",
    "Bilby.Props.marginalized_default_violated"
   ],
   "note": "Holds if every marginalised parameter has a prior; refuted when the default prior is filled in after the check."
  },
  {
   "property": "C86",
   "status": "partial",
   "theorems": [
    "Bilby.Props.joint_ln_prob",
    "Bilby.Props.joint_ln_prob_order",
    "Bilby.Props.joint_ln_prob_stale_violated",
    "Bilby.Props.joint_rescale_position",
    "Bilby.Props.joint_rescale_partial",
    "Bilby.Props.joint_rescale_order_violated",
    "Bilby.Props.joint_rescale_apart_violated",
    "Bilby.Props.joint_sample",
    "Bilby.Props.joint_sample_again_violated",
    "Bilby.Props.joint_sample_mixed_violated"
   ],
   "note": "ln_prob holds for every order from a clean state; rescale holds for adjacent parameters in the order of the names; other orders, stale requests and partial draws are refuted."
  },
  {
   "property": "C87",
   "status": "partial",
   "theorems": [
    "Bilby.Props.eig_orthonormal",
    "Bilby.Props.mvg_from_cov",
    "Bilby.Props.mvg_from_corr",
    "Bilby.Props.mvg_default",
    "Bilby.Props.mvg_from_corr_instance",
    "Bilby.Props.mvg_sigmas_alone_violated",
    "Bilby.Props.mvg_corr_alone_violated",
    "Bilby.Props.mixture_sum",
    "Bilby.Props.single_mode",
    "Bilby.Props.single_mode_normalised",
    "Bilby.Props.mixture_normalised_violated",
    "Bilby.Props.mixture_weights_violated",
    "Bilby.Props.mode_weights",
    "Bilby.Props.eig_repeated_violated"
   ],
   "note": "Law and density proved for one mode with orthonormal eigenvectors (proved for distinct eigenvalues); sigmas alone, mixture normalisation and weights, and repeated eigenvalues are refuted."
  },
  {
   "property": "C88",
   "status": "partial",
   "theorems": [
    "Bilby.Props.bounds_single",
    "Bilby.Props.bounds_many_partial",
    "Bilby.Props.bounds_many_violated"
   ],
   "note": "Holds for one sample and for samples within the bounds; refuted for several samples of which some are outside."
  },
  {
   "property": "C89",
   "status": "partial",
   "theorems": [
    "Bilby.Props.mass_ratio_density",
    "Bilby.Props.mass_ratio_cdf_violated",
    "Bilby.Props.mass_ratio_ln_prob",
    "Bilby.Props.mass_ratio_sampling",
    "Bilby.Props.uniform_in_component_masses",
    "Bilby.Props.uniform_in_component_masses_draws_partial"
   ],
   "note": "Densities, cdf on the range, ln_prob and the uniform law in the mass plane are proved for 0 < minimum < maximum <= 1. cdf outside the range is refuted. The law of the draws themselves is proved for an exact inverse cdf; for the interpolated one the error is bounded (mass_ratio_sampling)."
  },
  {
   "property": "C90",
   "status": "partial",
   "theorems": [
    "Bilby.Props.flat_conversion_weights",
    "Bilby.Props.flat_conversion_input_violated"
   ],
   "note": "Weights proved for arbitrary densities and likelihoods; that the input result is left alone is refuted."
  },
  {
   "property": "C91",
   "status": "partial",
   "theorems": [
    "Bilby.Props.chi_magnitude_isotropic",
    "Bilby.Props.chi_in_plane_isotropic",
    "Bilby.Props.chi_in_plane_density_partial",
    "Bilby.Props.chi_in_plane_cdf_violated",
    "Bilby.Props.chi_in_plane_inverse_cdf",
    "Bilby.Props.chi_in_plane_sampling"
   ],
   "note": "Both conditional priors give the isotropic law. For the in-plane prior the cdf is right up to the maximum and refuted above it; the aligned component itself is taken with its exact density (its table is C92)."
  },
  {
   "property": "C92",
   "status": "partial",
   "theorems": [
    "Bilby.Props.aligned_range_partial",
    "Bilby.Props.aligned_range_upper_violated",
    "Bilby.Props.aligned_range_lower_violated",
    "Bilby.Props.aligned_spike_violated"
   ],
   "note": "Range proved for tilt ranges containing zero and refuted for one-sided ones; the law is refuted for two uniform priors on [0, 1], where the offset 1e-32 makes a spike. No positive statement about the law is proved."
  },
  {
   "property": "C93",
   "status": "partial",
   "theorems": [
    "Bilby.Props.chirp_mass_bounds",
    "Bilby.Props.chirp_mass_bounds_attained",
    "Bilby.Props.component_mass_bound_partial",
    "Bilby.Props.component_mass_bound_violated"
   ],
   "note": "Bounds on the chirp mass proved and attained; minimum_component_mass is proved for binaries with the primary mass the larger one and refuted for mass ratios above one."
  },
  {
   "property": "C94",
   "status": "partial",
   "theorems": [
    "Bilby.Props.redundant_masses_partial",
    "Bilby.Props.redundant_ratios_violated",
    "Bilby.Props.redundant_fixed_violated",
    "Bilby.Props.redundant_chirp_violated",
    "Bilby.Props.redundant_equivalents",
    "Bilby.Props.redundant_tidal"
   ],
   "note": "Proved exactly for masses with at most one fixed and not just the two ratios present, for tilts, inclination and distances, and by count for tidal parameters; refuted for the two ratios and for two fixed masses.  The azimuth group is modelled, without a statement about it."
  },
  {
   "property": "C95",
   "status": "partial",
   "theorems": [
    "Bilby.Props.cosmo_limits_partial",
    "Bilby.Props.cosmo_limits_set",
    "Bilby.Props.cosmo_table_covers",
    "Bilby.Props.cosmo_unit_violated"
   ],
   "note": "Proved for Mpc after any sequence of changes; refuted for other units, where the table stays in Mpc."
  },
  {
   "property": "C96",
   "status": "partial",
   "theorems": [
    "Bilby.Props.cosmo_corresponding_partial",
    "Bilby.Props.cosmo_corresponding_back",
    "Bilby.Props.cosmo_corresponding_unit_violated"
   ],
   "note": "Proved with the default unit, including the way back; refuted with another unit, where the numbers in Mpc are kept."
  },
  {
   "property": "C97",
   "status": "proved",
   "theorems": [
    "Bilby.Props.cosmo_redshift_density",
    "Bilby.Props.cosmo_distance_density"
   ],
   "note": "Error bound with explicit constant for the redshift prior; for distances a mean-value statement at the table points."
  },
  {
   "property": "C98",
   "status": "partial",
   "theorems": [
    "Bilby.Props.cosmology_explicit_partial",
    "Bilby.Props.set_cosmology_violated"
   ],
   "note": "The explicit one is used; the first claim is refuted for every sequence of calls: get_cosmology() returns DEFAULT_COSMOLOGY, which set_cosmology never writes."
  },
  {
   "property": "C99",
   "status": "partial",
   "theorems": [
    "Bilby.Props.healpix_norm",
    "Bilby.Props.healpix_ln_prob_partial",
    "Bilby.Props.healpix_ln_prob_violated",
    "Bilby.Props.healpix_density_violated"
   ],
   "note": "Normalisation of the map and the value for one sample proved; refuted: several samples all get the value of the first, and the density is per solid angle, without the cosine of the declination."
  },
  {
   "property": "C100",
   "status": "partial",
   "theorems": [
    "Bilby.Props.healpix_pixel_choice_violated",
    "Bilby.Props.healpix_draw_violated",
    "Bilby.Props.healpix_distance_lost_violated",
    "Bilby.Props.healpix_distance_partial",
    "Bilby.Props.healpix_distance_error_violated",
    "Bilby.Props.healpix_layout_partial",
    "Bilby.Props.healpix_layout_violated"
   ],
   "note": "Mostly refuted: pixel probabilities of rescale, half of the directions outside the pixel, distances out of bounds lost, errors for small unit-cube values, scrambled layout of several samples with distance."
  },
  {
   "property": "C101",
   "status": "partial",
   "theorems": [
    "Bilby.Props.relbin_inner_partial",
    "Bilby.Props.relbin_proportional",
    "Bilby.Props.relbin_optimal_partial",
    "Bilby.Props.relbin_inner_violated",
    "Bilby.Props.relbin_fiducial_partial"
   ],
   "note": "Proved for signals proportional to the fiducial waveform and, with bounds, for affine ratios up to an explicit term from the last bin; that term (wrong centre of the last bin) refutes exactness."
  },
  {
   "property": "C102",
   "status": "partial",
   "theorems": [
    "Bilby.Props.relbin_bins",
    "Bilby.Props.relbin_phase_increasing",
    "Bilby.Props.relbin_epsilon_violated",
    "Bilby.Props.relbin_no_bins_violated"
   ],
   "note": "Coverage, order, number of bins and a phase change below 2 epsilon proved; the bound epsilon is refuted, and epsilon above the total phase is an error."
  },
  {
   "property": "C103",
   "status": "proved",
   "theorems": [
    "Bilby.Props.relbin_full_at_edges",
    "Bilby.Props.relbin_full_affine",
    "Bilby.Props.relbin_full_exact"
   ],
   "note": "Proved as stated."
  },
  {
   "property": "C104",
   "status": "partial",
   "theorems": [
    "Bilby.Props.relbin_summary_iff",
    "Bilby.Props.relbin_network_band",
    "Bilby.Props.relbin_band_violated",
    "Bilby.Props.relbin_fiducial_partial"
   ],
   "note": "Refuted: a detector whose band starts above the network's or ends at the last edge raises IndexError. Proved when all bands start together and reach beyond the fiducial waveform."
  },
  {
   "property": "C105",
   "status": "partial",
   "theorems": [
    "Bilby.Props.mb_tau_deriv",
    "Bilby.Props.mb_turning",
    "Bilby.Props.mb_above_mono",
    "Bilby.Props.mb_search_bound",
    "Bilby.Props.mb_search",
    "Bilby.Props.mb_search_violated",
    "Bilby.Props.mb_bands"
   ],
   "note": "Proved: derivative of tau, where 1/sqrt(-dtau/df) turns, monotonicity of the conditions up to the maximum banding frequency, no unbound local, within the tolerance of a frequency that meets the conditions, order and end of the bands. Violated: the frequency returned may itself miss the conditions, although the docstring promises them."
  },
  {
   "property": "C106",
   "status": "proved",
   "theorems": [
    "Bilby.Props.mb_window",
    "Bilby.Props.mb_windows_sum",
    "Bilby.Props.mb_windows_outside",
    "Bilby.Props.mb_window_range"
   ],
   "note": "For bands that do not overlap with more than their neighbour."
  },
  {
   "property": "C107",
   "status": "partial",
   "theorems": [
    "Bilby.Props.mb_norm",
    "Bilby.Props.mb_norm_one_band",
    "Bilby.Props.mb_one_point_violated",
    "Bilby.Props.mb_likelihood"
   ],
   "note": "Every band has at least two banded frequencies; a band with only one does not contribute (violated)."
  },
  {
   "property": "C108",
   "status": "proved",
   "theorems": [
    "Bilby.Props.mb_integers",
    "Bilby.Props.mb_inner",
    "Bilby.Props.mb_inner_one_band",
    "Bilby.Props.mb_likelihood"
   ],
   "note": "Real part for any number of bands, the complex number for one band."
  },
  {
   "property": "C109",
   "status": "proved",
   "theorems": [
    "Bilby.Props.calib_spline",
    "Bilby.Props.calib_spline_constructor",
    "Bilby.Props.calib_spline_exists",
    "Bilby.Props.calib_spline_nodes",
    "Bilby.Props.calib_spline_cubic"
   ],
   "note": ""
  },
  {
   "property": "C110",
   "status": "partial",
   "theorems": [
    "Bilby.Props.calib_factor_polar",
    "Bilby.Props.calib_factor_partial",
    "Bilby.Props.calib_factor_nodes",
    "Bilby.Props.calib_stale_violated"
   ],
   "note": "The other theorems hold in full. calib_factor_partial: if all node values are in the dictionary passed (and every name containing the prefix begins with it), the factor is that of these values, whatever was passed before.; calib_stale_violated: the same call, without any calibration parameters, raises an exception on a new object and returns the factor of the earlier parameters after another call."
  },
  {
   "property": "C111",
   "status": "partial",
   "theorems": [
    "Bilby.Props.precomputed_curve_partial",
    "Bilby.Props.precomputed_negative_violated",
    "Bilby.Props.precomputed_missing_violated"
   ],
   "note": "The other theorems hold in full. precomputed_curve_partial: an index within the number of curves selects that curve (rounded down), for the frequencies of the curves only.; precomputed_negative_violated: a negative index is not an error but counts from the last curve.; precomputed_missing_violated: a missing index raises a `TypeError`, not the `KeyError` that the code has for this case."
  },
  {
   "property": "C112",
   "status": "partial",
   "theorems": [
    "Bilby.Props.calib_file_curves",
    "Bilby.Props.calib_file_outside",
    "Bilby.Props.calib_file_params_partial",
    "Bilby.Props.calib_file_params_violated",
    "Bilby.Props.lookup_rebuild_partial",
    "Bilby.Props.lookup_rebuild_violated",
    "Bilby.Props.lookup_precomputed_violated",
    "Bilby.Props.lookup_model_partial",
    "Bilby.Props.lookup_model_violated"
   ],
   "note": "The other theorems hold in full. calib_file_params_partial: read from the first curve on, every curve has its own parameters.; calib_file_params_violated: read from another curve on, the parameters are those of other curves: the first curve returned has number 1, the first parameters number 0.; lookup_rebuild_partial: building the lookup table again from the file that the first time wrote gives the same curves and parameters, if all curves from the first on are asked for.; lookup_rebuild_violated: with a starting index the table built again from the file has fewer curves: two at first, one afterwards.; lookup_precomputed_violated: precomputed curves are used once: after building the table the model is gone and, as no file was written, building it a second time fails, with or without priors.; lookup_model_partial: with a band that has the range of the nodes, each curve of a new table is the factor of the detector's calibration model for the parameters of the same row.; lookup_model_violated: otherwise the curves belong to other nodes: for a model with nodes between 1 and 1000 and a band between 1 and 10, the factor at 10 is 2 in the model and 4 in the table, for the same parameters."
  },
  {
   "property": "C113",
   "status": "proved",
   "theorems": [
    "Bilby.Props.calib_priors_factor",
    "Bilby.Props.calib_priors_names",
    "Bilby.Props.calib_priors_frequencies",
    "Bilby.Props.calib_envelope"
   ],
   "note": ""
  },
  {
   "property": "C114",
   "status": "partial",
   "theorems": [
    "Bilby.Props.psd_value",
    "Bilby.Props.psd_value_nodes",
    "Bilby.Props.psd_query_partial",
    "Bilby.Props.psd_is_asd_squared_partial",
    "Bilby.Props.psd_length",
    "Bilby.Props.psd_list_violated",
    "Bilby.Props.psd_alias_violated",
    "Bilby.Props.psd_returned_violated",
    "Bilby.Props.psd_frequency_violated"
   ],
   "note": "The other theorems hold in full. psd_query_partial: in any state, after a density has been assigned or loaded, and after any further queries, assignments of the frequency array and changes of unrelated arrays, a query gives the interpolation of that density at the frequencies asked for, and the amplitude density is its square root.; psd_is_asd_squared_partial: after any history of assignments of arrays that are not negative, of files, queries and in-place changes, the power density of the object is the square of its amplitude density.; psd_list_violated: fails for a Python list: the assignment raises an error, but the power density is already replaced and the amplitude density is not.; psd_alias_violated: fails after an in-place change of the frequency array of the last query: the array is compared with itself and the old values are returned.; psd_returned_violated: fails after an in-place change of the array returned: it is the cached one.; psd_frequency_violated: fails after an assignment of the frequency array alone: at its own frequencies the object does not have its own density."
  },
  {
   "property": "C115",
   "status": "partial",
   "theorems": [
    "Bilby.Props.simulated_data_density_partial",
    "Bilby.Props.noise_outside",
    "Bilby.Props.noise_nyquist_violated",
    "Bilby.Props.noise_component_law",
    "Bilby.Props.periodogram_violated",
    "Bilby.Props.matched_filter_law"
   ],
   "note": "The other theorems hold in full. simulated_data_density_partial: the likelihood is the probability density of simulated data: for every signal, the components in the band of the signal plus a noise realisation in each detector have, with respect to Lebesgue measure, the density `exp(log likelihood)` up to the constant `∏ √(2π T S / 4)`.; noise_nyquist_violated: fails at the Nyquist frequency for an even number of samples: the noise is always zero there, whatever the density.; periodogram_violated: fails for the spectrum of simulated noise: the mean of `psd_from_freq_series` of a noise realisation is twice the density."
  },
  {
   "property": "C116",
   "status": "partial",
   "theorems": [
    "Bilby.Props.inject_adds",
    "Bilby.Props.inject_adds_to_frequency_data",
    "Bilby.Props.inject_comm",
    "Bilby.Props.inject_erases_violated",
    "Bilby.Props.inject_time_domain",
    "Bilby.Props.zero_noise_snr"
   ],
   "note": "The other theorems hold in full. inject_erases_violated: fails outside the band: an injection, even of nothing, sets the stored data outside the band to zero, and they stay zero when the band is widened afterwards."
  },
  {
   "property": "C117",
   "status": "partial",
   "theorems": [
    "Bilby.Props.whiten_inner",
    "Bilby.Props.whiten_noise",
    "Bilby.Props.whitened_variance_violated"
   ],
   "note": "The other theorems hold in full. whitened_variance_violated: fails for the whitened time series: every sample of the whitened noise of an even number `N` of samples has the variance `((N + 2) / N) ^ 2` and not one, whatever the band."
  },
  {
   "property": "C118",
   "status": "partial",
   "theorems": [
    "Bilby.Props.network_check_iff",
    "Bilby.Props.network_build",
    "Bilby.Props.network_consistent_partial",
    "Bilby.Props.rejected_stays_violated",
    "Bilby.Props.start_time_violated",
    "Bilby.Props.order_violated",
    "Bilby.Props.unchecked_violated",
    "Bilby.Props.network_inject",
    "Bilby.Props.network_inject_violated"
   ],
   "note": "The other theorems hold in full. network_consistent_partial: an `append`, `extend` or `insert` that raises nothing leaves a consistent list. (Missing: the other operations of `list`, and those that raise.); rejected_stays_violated: fails after an exception: the refused detector has been added all the same, and every later append raises.; start_time_violated: fails for GPS times: start times that differ by one part in a thousand million, about a second, are accepted.; order_violated: fails for the order: the same three detectors are accepted or refused depending on which one comes first, and removing a detector from an accepted list can leave a refused one.; unchecked_violated: fails for `+=` and item assignment: they check nothing.; network_inject_violated: fails for a refused injection: the detectors before the first one in which the signal does not fit have already been changed."
  },
  {
   "property": "C119",
   "status": "partial",
   "theorems": [
    "Bilby.Props.triangle_arms",
    "Bilby.Props.triangle_null_stream_partial",
    "Bilby.Props.triangle_vertex_violated",
    "Bilby.Props.triangle_side_violated"
   ],
   "note": "The other theorems hold in full. triangle_null_stream_partial: the null stream: in a common plane the tensors of the three detectors add up to zero, so the sum of the three outputs contains no signal; triangle_vertex_violated: fails for the vertices: the arms of the first detector end at the other vertices of the triangle, its second arm (turned by sixty degrees) at the second vertex, since that one has its first arm in the opposite direction; triangle_side_violated: fails for the distance: the distance in the east-west direction of the first two vertices (radius times cosine of the latitude times difference of longitude) is at most the projection of the arm times the cosine of the latitude, hence too short away from the equator: the convergence of the meridians is left out."
  },
  {
   "property": "C120",
   "status": "partial",
   "theorems": [
    "Bilby.Props.roq_linear_phases",
    "Bilby.Props.roq_linear_exact_partial",
    "Bilby.Props.roq_quadratic_exact",
    "Bilby.Props.roq_frequencies_cover_partial",
    "Bilby.Props.roq_merged_violated",
    "Bilby.Props.roq_notch_violated",
    "Bilby.Props.roq_no_params"
   ],
   "note": "Proved: for every mask the value is the inner product with the phases of consecutive bins, so exact for an unbroken band; quadratic sums exact for every mask; the check of the parameters implies that every frequency is in the basis. Refuted: notches, and two basis files with different lowest frequencies. The interpolation of the waveform is a hypothesis."
  },
  {
   "property": "C121",
   "status": "partial",
   "theorems": [
    "Bilby.Props.roq_in_bounds",
    "Bilby.Props.roq_interp_nodes",
    "Bilby.Props.roq_interp_cubic",
    "Bilby.Props.roq_interp_error",
    "Bilby.Props.roq_time_error_partial",
    "Bilby.Props.roq_array_eq_partial",
    "Bilby.Props.roq_array_wraps_violated"
   ],
   "note": "Proved: when a time is accepted, exact at samples and for cubics, error at most `(ωΔ)⁴/6` per wave (Taylor bound), hence a bound for the inner product; both ways agree inside. Refuted: with time marginalisation times near the start take the last samples."
  },
  {
   "property": "C122",
   "status": "partial",
   "theorems": [
    "Bilby.Props.roq_grid_covers_partial",
    "Bilby.Props.roq_grid_clipped_violated",
    "Bilby.Props.roq_number_of_samples",
    "Bilby.Props.roq_last_detector_violated",
    "Bilby.Props.roq_cells",
    "Bilby.Props.roq_jitter_exact"
   ],
   "note": "Proved: cover when the segment is long enough, power of two above the bins, cells fill the prior, average over the jitter is the integral over the prior (Lebesgue integral). Refuted: clipping at the start of the segment; only the last detector's noise counts. `simpson` is a parameter."
  },
  {
   "property": "C123",
   "status": "partial",
   "theorems": [
    "Bilby.Props.basis_chosen",
    "Bilby.Props.basis_selection",
    "Bilby.Props.basis_gap_violated",
    "Bilby.Props.basis_unnamed_violated",
    "Bilby.Props.basis_fresh_partial",
    "Bilby.Props.basis_stale_violated",
    "Bilby.Props.unique_nodes"
   ],
   "note": "Proved: the first basis that contains the parameters, none is missed by the selection, cache correct without exceptions, nodes recovered. Refuted: gaps pass the check, parameters with other names use the first basis, wrong basis after an exception."
  },
  {
   "property": "C124",
   "status": "partial",
   "theorems": [
    "Bilby.Props.select_idempotent",
    "Bilby.Props.weights_hdf5_roundtrip",
    "Bilby.Props.weights_hdf5_single",
    "Bilby.Props.weights_npz_violated",
    "Bilby.Props.weights_npz_refused",
    "Bilby.Props.weights_empty_violated"
   ],
   "note": "Proved: idempotent selection, hdf5 round trip; npz refused for several bases. Refuted: npz loses ranges and nodes; a file without a matching basis is accepted."
  },
  {
   "property": "C125",
   "status": "partial",
   "theorems": [
    "Bilby.Props.burn_in_discards",
    "Bilby.Props.burn_in_reaches_bulk",
    "Bilby.Props.burn_in_minimal",
    "Bilby.Props.tau_sources",
    "Bilby.Props.tau_estimate",
    "Bilby.Props.chain_bounds",
    "Bilby.Props.samples_rows",
    "Bilby.Props.nsamples_le_rows",
    "Bilby.Props.thin_overflow_violated"
   ],
   "note": "Proved: lower bounds of the burn-in, rolling mean reaches the bulk and the index is the first such, sources and lower bound of the autocorrelation time, bounds kept by every sequence of queries, rows of `samples`, count at most the rows. Refuted: `thin` reads the autocorrelation time twice; between the readings it may become infinite, and the conversion to an integer raises."
  },
  {
   "property": "C126",
   "status": "partial",
   "theorems": [
    "Bilby.Props.stops_with_enough",
    "Bilby.Props.silent_never_stops_violated",
    "Bilby.Props.frozen_never_stops_violated",
    "Bilby.Props.stops_when_printed_partial"
   ],
   "note": "Proved: when the run stops, the zero-temperature chains return at least the requested number of rows (without rejection sampling of tempered chains). Partial: a single chain with bounded burn-in and autocorrelation time stops at a message after enough steps. Refuted: without a message the count is never refreshed; with `stop_after_convergence` a chain is frozen on the cached count and may stay below the target for ever."
  },
  {
   "property": "C127",
   "status": "partial",
   "theorems": [
    "Bilby.Props.stepping_unbiased",
    "Bilby.Props.stepping_exact",
    "Bilby.Props.thermodynamic_error",
    "Bilby.Props.evidence_hot_end_violated",
    "Bilby.Props.thermodynamic_linear",
    "Bilby.Props.thermodynamic_even_violated",
    "Bilby.Props.ensemble_average",
    "Bilby.Props.ensemble_error_violated",
    "Bilby.Props.stepping_rows"
   ],
   "note": "Proved: unbiased ratio for chains that are independent between temperatures, exactness for exact means, error of the trapezium rule by Jensen's inequality, rows. Refuted: the ladder ends above `β = 0`, which is not corrected; the error estimate of an even number of temperatures covers another range; the uncertainty does not decrease with the number of ensembles."
  },
  {
   "property": "C128",
   "status": "partial",
   "theorems": [
    "Bilby.Props.initial_values",
    "Bilby.Props.maximise_partial",
    "Bilby.Props.maximise_excluded_violated"
   ],
   "note": "Proved: given values are used, others are drawn. Partial: maximum when the prior is positive at all tried points. Refuted: points of prior zero are preferred."
  },
  {
   "property": "C129",
   "status": "partial",
   "theorems": [
    "Bilby.Props.hot_rows",
    "Bilby.Props.hot_law",
    "Bilby.Props.hot_shared_violated",
    "Bilby.Props.hot_rows_zero",
    "Bilby.Props.hot_count_violated"
   ],
   "note": "Proved: kept rows, law proportional to the posterior (for a fixed bound of the likelihood), all rows at `β = 1`. Refuted: with `use_ratio` and shared memory the chain changes; ensembles at zero temperature are counted twice."
  },
  {
   "property": "C130",
   "status": "partial",
   "theorems": [
    "Bilby.Props.ladder_tmax",
    "Bilby.Props.ladder_snr",
    "Bilby.Props.ladder_snr_violated",
    "Bilby.Props.ladder_given_violated",
    "Bilby.Props.ladder_refused"
   ],
   "note": "Proved: geometric ladder from 1 to `1 / Tmax`, from the signal-to-noise ratio when `SNR² > ndim`. Refuted: colder ladder for small ratios; given ladders are checked for length only."
  },
  {
   "property": "C131",
   "status": "partial",
   "theorems": [
    "Bilby.Props.reconstruct_fresh",
    "Bilby.Props.reconstruct_history",
    "Bilby.Props.reconstruct_resumed",
    "Bilby.Props.reconstruct_again",
    "Bilby.Props.reconstruct_stale_violated",
    "Bilby.Props.reconstruct_none",
    "Bilby.Props.reconstruct_other",
    "Bilby.Props.reconstruct_block_violated",
    "Bilby.Props.reconstruct_history_violated"
   ],
   "note": "Proved: values, rows, resumption, repetition, independence of processes. Refuted: another block size on resumption raises; the file is recognised by the samples only; parameters that the samples lack are those of the last evaluation."
  },
  {
   "property": "C132",
   "status": "partial",
   "theorems": [
    "Bilby.Props.perDetector_rows",
    "Bilby.Props.snrColumns_rows",
    "Bilby.Props.rows_empty_violated",
    "Bilby.Props.skyColumns_rows_partial",
    "Bilby.Props.skyColumns_labels_violated"
   ],
   "note": "Proved: by position for log likelihoods and ratios. Partial: sky-frame parameters for labels `0, 1, …`. Refuted: other labels (values of other rows or NaN), empty frames."
  },
  {
   "property": "C133",
   "status": "partial",
   "theorems": [
    "Bilby.Props.generate_keeps",
    "Bilby.Props.generate_fixed",
    "Bilby.Props.generate_skip",
    "Bilby.Props.generate_waveform",
    "Bilby.Props.generate_default_violated",
    "Bilby.Props.specific_spec"
   ],
   "note": "Proved: kept parameters, fixed parameters, failing groups, subset. Refuted: supplied waveform settings are replaced by the defaults."
  },
  {
   "property": "C134",
   "status": "partial",
   "theorems": [
    "Bilby.Props.metropolis_balance",
    "Bilby.Props.fixedGaussian_ratio",
    "Bilby.Props.adaptiveGaussian_ratio",
    "Bilby.Props.fixedJump_ratio",
    "Bilby.Props.differentialEvolution_ratio_partial",
    "Bilby.Props.fisherJump_ratio_partial",
    "Bilby.Props.density_ratio",
    "Bilby.Props.stretch_ratio",
    "Bilby.Props.differentialEvolution_reflective_violated",
    "Bilby.Props.stretch_one_periodic_violated",
    "Bilby.Props.fisherUpdate_violated"
   ],
   "note": "Proved: detailed balance from the claim; Gaussian, adaptive and fixed jumps with all boundaries, draws from densities, stretch moves in other than one dimension. Partial: differential evolution and stored Fisher matrix without reflective boundaries. Refuted: differential evolution with a reflective boundary; the Fisher step that computes the matrix; the stretch move of one periodic parameter."
  },
  {
   "property": "C135",
   "status": "partial",
   "theorems": [
    "Bilby.Props.adaptationRate_decreases",
    "Bilby.Props.updateScale_rule",
    "Bilby.Props.updateScale_floor",
    "Bilby.Props.updateScale_drift",
    "Bilby.Props.fallback_adapts_violated"
   ],
   "note": "Proved: rule, floor, drift, decreasing rate. Refuted: the fallback never adapts."
  },
  {
   "property": "C136",
   "status": "partial",
   "theorems": [
    "Bilby.Props.propose_uses_density",
    "Bilby.Props.refit_effects",
    "Bilby.Props.no_refit_before",
    "Bilby.Props.failed_refit_repeats",
    "Bilby.Props.gmm_verification",
    "Bilby.Props.single_parameter_violated",
    "Bilby.Props.kde_verification_violated"
   ],
   "note": "Proved: use of the density, effects of a fit, waiting, verification of the mixture model. Refuted: one parameter (never trained); the kernel estimate (transposed array)."
  },
  {
   "property": "C137",
   "status": "partial",
   "theorems": [
    "Bilby.Props.phaseReversal_ratio",
    "Bilby.Props.polarisationReversal_ratio",
    "Bilby.Props.bothReversal_ratio",
    "Bilby.Props.phaseReversal_periodic",
    "Bilby.Props.phaseReversal_negative_violated",
    "Bilby.Props.correlatedJump_ratio_partial",
    "Bilby.Props.correlatedJump_periodic_violated"
   ],
   "note": "Proved: reversals on their ranges and for a periodic phase in any range of length 2π. Partial: correlated jumps without boundaries. Refuted: phase with negative values and no boundary; correlated jumps with periodic boundaries."
  },
  {
   "property": "C138",
   "status": "partial",
   "theorems": [
    "Bilby.Props.removeProposals_spec",
    "Bilby.Props.removeProposals_exact_partial",
    "Bilby.Props.noAG_violated"
   ],
   "note": "Proved: what is removed. Refuted: `noAG` removes the Fisher matrix proposal too."
  },
  {
   "property": "C139",
   "status": "partial",
   "theorems": [
    "Bilby.Props.normJump_ratio",
    "Bilby.Props.skyWander_ratio",
    "Bilby.Props.ensembleWalk_ratio_partial",
    "Bilby.Props.jumpEvolution_ratio_partial",
    "Bilby.Props.eigenVector_ratio_partial",
    "Bilby.Props.drawFlat_ratio",
    "Bilby.Props.jumpStretch_ratio_partial",
    "Bilby.Props.jumpStretch_boundary_violated",
    "Bilby.Props.polarisationPhase_ratio",
    "Bilby.Props.polarisationPhase_free_violated",
    "Bilby.Props.cycle_member",
    "Bilby.Props.cycle_logJ_violated"
   ],
   "note": "Proved: normal steps, sky steps and flat draws with all boundaries; the half-period jump in phase and polarisation when both are periodic. Partial: ensemble walk, differential evolution and eigenvector steps without reflective boundaries; stretch without boundaries. Refuted: stretch with boundaries; half-period jump without them; the cycle, whose own `log_J` never changes."
  },
  {
   "property": "C140",
   "status": "partial",
   "theorems": [
    "Bilby.Props.seeded_same",
    "Bilby.Props.priorDraws_same",
    "Bilby.Props.seeded_apart",
    "Bilby.Props.walk_unseeded_violated",
    "Bilby.Props.run_current",
    "Bilby.Props.sky_unseeded_violated",
    "Bilby.Props.alias_seeds",
    "Bilby.Props.alias_reproducible",
    "Bilby.Props.own_key_unseeded_violated",
    "Bilby.Props.no_key_unseeded_violated",
    "Bilby.Props.dynesty_same_stream"
   ],
   "note": "Proved: everything that looks up `random.rng` when it draws. Refuted: the default generator of the ensemble walk; the jumps that use python's `random`; seeds given under the sampler's own name. Shown besides: dynesty and bilby then draw the same numbers."
  },
  {
   "property": "C141",
   "status": "partial",
   "theorems": [
    "Bilby.Props.stop_conditions",
    "Bilby.Props.stop_enough",
    "Bilby.Props.ignored_never_stops_violated",
    "Bilby.Props.short_never_stops",
    "Bilby.Props.gradWindow_odd",
    "Bilby.Props.gradWindow_violated",
    "Bilby.Props.q_conservative",
    "Bilby.Props.q_violated",
    "Bilby.Props.minimumStable_spec",
    "Bilby.Props.discard_spec"
   ],
   "note": "Proved: the conditions of stopping; the number of samples; what is discarded; the statistic used is at least that of Gelman and Rubin. Refuted: with an ignored parameter the sampler never stops; the window of the smoothing is not the nearest odd integer; the statistic is not exactly theirs."
  },
  {
   "property": "C142",
   "status": "proved",
   "theorems": [
    "Bilby.Props.stored_columns",
    "Bilby.Props.mem_sliceSteps",
    "Bilby.Props.flatten_zip",
    "Bilby.Props.flatten_likelihood",
    "Bilby.Props.resume_continues",
    "Bilby.Props.resume_temperatures",
    "Bilby.Props.resume_hypothesis",
    "Bilby.Props.round_stores"
   ],
   "note": ""
  },
  {
   "property": "C143",
   "status": "partial",
   "theorems": [
    "Bilby.Props.startValue_range",
    "Bilby.Props.startValue_reaches",
    "Bilby.Props.minimiseLoop_result",
    "Bilby.Props.minimise_never_gives_up_violated",
    "Bilby.Props.evaluate_spec",
    "Bilby.Props.wrapOne_spec",
    "Bilby.Props.periodic_rejected_violated"
   ],
   "note": "Proved: the range of the initial positions; wrapping of stored positions. Refuted: the loop never gives up; points beyond the end of a periodic parameter are always rejected, since the wrapping of the evaluator is never called."
  },
  {
   "property": "C144",
   "status": "partial",
   "theorems": [
    "Bilby.Props.quantile_mono",
    "Bilby.Props.quantile_range",
    "Bilby.Props.quantile_perm",
    "Bilby.Props.quantile_affine",
    "Bilby.Props.quantile_count",
    "Bilby.Props.quantile_sides",
    "Bilby.Props.median_eq",
    "Bilby.Props.interval_median",
    "Bilby.Props.interval_nested",
    "Bilby.Props.interval_count_partial",
    "Bilby.Props.interval_count_violated",
    "Bilby.Props.interval_mean_violated",
    "Bilby.Props.settings",
    "Bilby.Props.errorBar_spec",
    "Bilby.Props.errorBar_none",
    "Bilby.Props.errorBar_lower_violated"
   ],
   "note": "Proved: all parts about quantiles; the interval contains the median, is monotone in the level and contains more than `level * m - 1` of `m + 1` samples. Refuted: it contains the given fraction (not for two samples); errors relative to the mean have the right sign; the documented `lower` and `upper` of the error bar are set."
  },
  {
   "property": "C145",
   "status": "partial",
   "theorems": [
    "Bilby.Props.posterior_samples",
    "Bilby.Props.posterior_fixed",
    "Bilby.Props.posterior_fixed_value",
    "Bilby.Props.posterior_logs",
    "Bilby.Props.posterior_columns",
    "Bilby.Props.priorValues_spec",
    "Bilby.Props.priorValues_conditional_violated",
    "Bilby.Props.priorValues_conditional_last_violated",
    "Bilby.Props.levelKeys_violated",
    "Bilby.Props.levelKeys_float",
    "Bilby.Props.kde_fresh",
    "Bilby.Props.kde_stale_violated",
    "Bilby.Props.posteriorProbability_one",
    "Bilby.Props.posteriorProbability_many_violated",
    "Bilby.Props.posteriorProbability_square_violated",
    "Bilby.Props.newPriorWeight_spec",
    "Bilby.Props.newPriorWeight_none_violated"
   ],
   "note": "Proved: the columns; prior values for independent priors; weights for a new prior. Refuted: prior values of conditional priors; levels of integer injections; the density estimate after the posterior is replaced; posterior probabilities of several samples; weights when no parameter is shared."
  },
  {
   "property": "C146",
   "status": "partial",
   "theorems": [
    "Bilby.Props.posteriorVolume_one",
    "Bilby.Props.posteriorVolume_units",
    "Bilby.Props.covariance_spec",
    "Bilby.Props.covariance_shift",
    "Bilby.Props.occam_spec",
    "Bilby.Props.occam_units",
    "Bilby.Props.posteriorVolume_violated",
    "Bilby.Props.priorVolume_spec",
    "Bilby.Props.priorVolume_fixed_violated",
    "Bilby.Props.dimensionality_nonneg",
    "Bilby.Props.dimensionality_shift",
    "Bilby.Props.dimensionality_gaussian"
   ],
   "note": "Proved: one parameter; units; dimensionality of samples, its independence of the normalisation, and its value for Gaussians with exact averages. Refuted: the posterior volume of two correlated parameters; the prior volume with a fixed parameter."
  },
  {
   "property": "C147",
   "status": "partial",
   "theorems": [
    "Bilby.Props.derivative_quadratic",
    "Bilby.Props.derivative_is_difference",
    "Bilby.Props.derivative_ends",
    "Bilby.Props.derivatives_spec",
    "Bilby.Props.derivatives_linear",
    "Bilby.Props.derivative_small_violated",
    "Bilby.Props.difference_cubic"
   ],
   "note": "Proved: all parts. Refuted: exactness for small absolute steps, for which every derivative is zero."
  },
  {
   "property": "C148",
   "status": "partial",
   "theorems": [
    "Bilby.Props.roundUp_least",
    "Bilby.Props.roundUp_lt",
    "Bilby.Props.roundUp_power",
    "Bilby.Props.boundedSpline_spec",
    "Bilby.Props.bound_default",
    "Bilby.Props.inferParameters_spec",
    "Bilby.Props.inferParameters_keyword_violated"
   ],
   "note": "Proved: all parts. Refuted: parameters that can be given by keyword only are not found."
  },
  {
   "property": "C149",
   "status": "partial",
   "theorems": [
    "Bilby.Props.logLikelihood_parameters",
    "Bilby.Props.logLikelihood_history",
    "Bilby.Props.logLikelihood_nested",
    "Bilby.Props.verifyUseRatio_spec",
    "Bilby.Props.checkDraw_spec",
    "Bilby.Props.checkDraw_constraint",
    "Bilby.Props.initialPoints_spec",
    "Bilby.Props.initialPoints_ends",
    "Bilby.Props.randomDraw_violated",
    "Bilby.Props.setupPool_spec",
    "Bilby.Props.closePool_closes",
    "Bilby.Props.closePool_user_violated",
    "Bilby.Props.writesState_spec"
   ],
   "note": "Proved: the value of the log likelihood for any history, the ratio option, the check of draws, the number and finiteness of initial points, the pools. Refuted: random draws that fail the check are used; a pool of the user is closed as well."
  },
  {
   "property": "C150",
   "status": "partial",
   "theorems": [
    "Bilby.Props.checkCached_spec",
    "Bilby.Props.checkCached_missing",
    "Bilby.Props.checkCached_result",
    "Bilby.Props.checkCached_options",
    "Bilby.Props.checkCached_priors_violated",
    "Bilby.Props.checkCached_error_violated",
    "Bilby.Props.checkCached_order"
   ],
   "note": "Proved: the comparison of keys and likelihood, the options, the order of the parameters. Refuted: the priors are not compared; a likelihood without a description raises an error."
  },
  {
   "property": "C151",
   "status": "partial",
   "theorems": [
    "Bilby.Props.setup_working",
    "Bilby.Props.session_files",
    "Bilby.Props.session_continues",
    "Bilby.Props.moveBack_violated",
    "Bilby.Props.vizCallback_violated",
    "Bilby.Props.saveTime_total",
    "Bilby.Props.timeSession_total",
    "Bilby.Props.load_fresh",
    "Bilby.Props.dumpCallback_violated"
   ],
   "note": "Proved: files over any number of sessions, total sampling time. Refuted: files that the sampler removes come back; the callback of ultranest copies nothing; the time that pymultinest leaves in the output directory is outdated."
  },
  {
   "property": "C152",
   "status": "partial",
   "theorems": [
    "Bilby.Props.wrapped_spec",
    "Bilby.Props.ultranestResume_violated",
    "Bilby.Props.splitRow_spec",
    "Bilby.Props.nestedSamples_spec",
    "Bilby.Props.finalVolume_spec",
    "Bilby.Props.masked_spec",
    "Bilby.Props.masked_pairs",
    "Bilby.Props.masked_nonempty",
    "Bilby.Props.box_spec",
    "Bilby.Props.perturb_spec",
    "Bilby.Props.perturb_error",
    "Bilby.Props.dnestMove_law",
    "Bilby.Props.dnestMove_factor",
    "Bilby.Props.dnestMove_prior_violated"
   ],
   "note": "Proved: wrapped flags, rows of nested samples, volumes, masked pairs, the law of the move of dnest4. Refuted: the resume option of ultranest makes no difference; moves of dnest4 do not keep a prior that is not uniform."
  },
  {
   "property": "C153",
   "status": "partial",
   "theorems": [
    "Bilby.Props.nburn_spec",
    "Bilby.Props.nburn_given",
    "Bilby.Props.nburn_fraction",
    "Bilby.Props.burnedIn_violated",
    "Bilby.Props.emcee_length",
    "Bilby.Props.emcee_mem",
    "Bilby.Props.emcee_order",
    "Bilby.Props.emcee_aligned_partial",
    "Bilby.Props.emcee_aligned_violated",
    "Bilby.Props.kombine_aligned",
    "Bilby.Props.kombineWalkers_violated",
    "Bilby.Props.session_resume",
    "Bilby.Props.kombineAuto_spec",
    "Bilby.Props.kombineAuto_resumed_violated"
   ],
   "note": "Proved: members and order of the result, alignment for kombine, number of steps after interruptions. Refuted: alignment for emcee with several walkers and steps; remaining samples for long autocorrelation times; walkers of kombine; resuming kombine after automatic burn-in."
  },
  {
   "property": "C154",
   "status": "partial",
   "theorems": [
    "Bilby.Props.nessaiWeights_spec",
    "Bilby.Props.nessai_unit",
    "Bilby.Props.nessai_unit_violated",
    "Bilby.Props.splitKwargs_spec",
    "Bilby.Props.splitKwargs_missing"
   ],
   "note": "Proved: weights, keywords, the maps for independent priors. Refuted: the maps for conditional priors."
  },
  {
   "property": "C155",
   "status": "partial",
   "theorems": [
    "Bilby.Props.lambdaOf_spec",
    "Bilby.Props.physicalCheck_spec",
    "Bilby.Props.pieceLambdas_spec",
    "Bilby.Props.spectralLambdas_spec",
    "Bilby.Props.pressures_spec",
    "Bilby.Props.pressures_law",
    "Bilby.Props.pcaToSpectral_bijective",
    "Bilby.Props.pcaToSpectral_zero",
    "Bilby.Props.perRow_scalars",
    "Bilby.Props.perRow_arrays",
    "Bilby.Props.love_spec",
    "Bilby.Props.love_mono",
    "Bilby.Props.loveFit_equal",
    "Bilby.Props.loveFit_spec",
    "Bilby.Props.loveScatter_spec",
    "Bilby.Props.love_equal_violated",
    "Bilby.Props.loveAuto_spec",
    "Bilby.Props.loveAuto_violated",
    "Bilby.Props.convertBns_none",
    "Bilby.Props.convertBns_given",
    "Bilby.Props.convertBns_tilde",
    "Bilby.Props.convertBns_tildeOnly",
    "Bilby.Props.convertBns_first",
    "Bilby.Props.convertBns_second_violated",
    "Bilby.Props.convertBns_symmetric",
    "Bilby.Props.convertBns_symmetric_violated",
    "Bilby.Props.convertBns_eos",
    "Bilby.Props.addedKey_spec",
    "Bilby.Props.generateTidal_spec"
   ],
   "note": "Proved: checks, deformabilities, reparameterisations, Love relations, rows of arrays, the cases of the dictionary. Refuted: equal masses with uncertainties; a single sample with the automatic scatter; `lambda_2` alone; `lambda_symmetric` without the mass ratio."
  },
  {
   "property": "C156",
   "status": "partial",
   "theorems": [
    "Bilby.Props.sineGaussian_plus_norm",
    "Bilby.Props.sineGaussian_cross_norm",
    "Bilby.Props.sineGaussian_plus_transform",
    "Bilby.Props.sineGaussian_cross_transform",
    "Bilby.Props.supernova_distance",
    "Bilby.Props.supernova_unit_violated",
    "Bilby.Props.supernovaPca_spec"
   ],
   "note": "Proved: Fourier transforms and norms of both polarisations, scaling with distance, linearity. Refuted: the unit of the distance of `supernova` (megaparsecs, documented as kiloparsecs)."
  },
  {
   "property": "C157",
   "status": "partial",
   "theorems": [
    "Bilby.Props.assemble_spec",
    "Bilby.Props.assemble_epoch",
    "Bilby.Props.assemble_grid",
    "Bilby.Props.assemble_offset_violated",
    "Bilby.Props.guarded_spec",
    "Bilby.Props.startFrequency_spec",
    "Bilby.Props.defaultReference_violated",
    "Bilby.Props.defaultReference_spec",
    "Bilby.Props.pnName_spec",
    "Bilby.Props.insertKnown_spec",
    "Bilby.Props.roqWaveform_spec",
    "Bilby.Props.roqWaveformStored_spec",
    "Bilby.Props.relativeBinning_spec"
   ],
   "note": "Proved: band, padding, epoch, errors, start frequency, names of keywords, nodes. Refuted: grids that do not start at zero; default reference frequency of the reduced-order quadratures."
  },
  {
   "property": "C158",
   "status": "partial",
   "theorems": [
    "Bilby.Props.checkpointed_same",
    "Bilby.Props.resumed_same",
    "Bilby.Props.initial_fresh",
    "Bilby.Props.limits_violated",
    "Bilby.Props.writeTimes_gap",
    "Bilby.Props.writeTimes_apart",
    "Bilby.Props.nCheckPoint_spec",
    "Bilby.Props.session_time",
    "Bilby.Props.sessions_time",
    "Bilby.Props.early_signal_violated",
    "Bilby.Props.unstarted_violated",
    "Bilby.Props.samplingTime_short",
    "Bilby.Props.samplingTime_violated",
    "Bilby.Props.printFunc_spec",
    "Bilby.Props.printFunc_violated",
    "Bilby.Props.weights_sum",
    "Bilby.Props.keep_probability",
    "Bilby.Props.keep_max",
    "Bilby.Props.rejectionResult_spec",
    "Bilby.Props.neff_spec",
    "Bilby.Props.boundaries_spec",
    "Bilby.Props.setBound_spec",
    "Bilby.Props.setSample_spec",
    "Bilby.Props.dynamicNlive_spec",
    "Bilby.Props.runPlain_added"
   ],
   "note": "Proved: equality of all runs, states written, times of writes, sampling time, rejection sampling, effective number, options. Refuted: user limits with checkpoints; signals before the start; days in the run statistics; the third method of printing."
  },
  {
   "property": "C159",
   "status": "partial",
   "theorems": [
    "Bilby.Props.openData_fetch",
    "Bilby.Props.openData_cached",
    "Bilby.Props.openData_cache_violated",
    "Bilby.Props.openData_write_violated",
    "Bilby.Props.openData_unwritable_violated",
    "Bilby.Props.openData_negative",
    "Bilby.Props.readFrame_spec",
    "Bilby.Props.readFrame_rate",
    "Bilby.Props.readFrame_buffer_violated",
    "Bilby.Props.readFrame_detector_violated",
    "Bilby.Props.findInterval_spec",
    "Bilby.Props.gracedb_violated",
    "Bilby.Props.queryType_spec",
    "Bilby.Props.convertArgs_spec",
    "Bilby.Props.getApproximant_spec",
    "Bilby.Props.splineAngle_spec",
    "Bilby.Props.splineAngle_mono"
   ],
   "note": "Proved: fetching, caching, order of channels, rates, intervals, conversions, the phase. Refuted: cached data with another buffer or options; writing without a cache; fetched data lost when not writable; buffers and detectors of frames; data after a trigger."
  },
  {
   "property": "C160",
   "status": "partial",
   "theorems": [
    "Bilby.Props.pymc_gaussian",
    "Bilby.Props.pymc_truncated_gaussian",
    "Bilby.Props.pymc_half_gaussian",
    "Bilby.Props.pymc_uniform",
    "Bilby.Props.pymc_log_normal",
    "Bilby.Props.pymc_exponential",
    "Bilby.Props.pymc_logistic",
    "Bilby.Props.pymc_cauchy",
    "Bilby.Props.pymc_student_t",
    "Bilby.Props.pymc_gamma",
    "Bilby.Props.pymc_chi_squared",
    "Bilby.Props.pymc_beta_partial",
    "Bilby.Props.pymc_beta_violated",
    "Bilby.Props.pymc_synonyms",
    "Bilby.Props.pymc_sine",
    "Bilby.Props.pymc_cosine",
    "Bilby.Props.pymc_bounds",
    "Bilby.Props.pymc_means",
    "Bilby.Props.pymc_log_uniform",
    "Bilby.Props.pymc_power_law_partial",
    "Bilby.Props.pymc_power_law_violated",
    "Bilby.Props.pymc_pareto_violated",
    "Bilby.Props.mvg_bounds_partial",
    "Bilby.Props.mvg_violated",
    "Bilby.Props.pymc_likelihood_at",
    "Bilby.Props.pymc_likelihood_integer_violated",
    "Bilby.Props.pymc_sigma_known",
    "Bilby.Props.pymc_sigma_violated",
    "Bilby.Props.stepValid_spec",
    "Bilby.Props.collect_spec",
    "Bilby.Props.sampleArgs_nuts",
    "Bilby.Props.sampleArgs_mixed",
    "Bilby.Props.nuts_step_kwargs_violated",
    "Bilby.Props.sampleArgs_all"
   ],
   "note": "Proved: densities of all mapped priors, bounds, starting values, evaluation of the likelihood, step methods and options. Refuted: bounds of the beta prior; power law below minus one; the Pareto form; multivariate Gaussians; integer fixed parameters; unknown standard deviations; step options of NUTS."
  },
  {
   "property": "C161",
   "status": "partial",
   "theorems": [
    "Bilby.Props.polychord_read",
    "Bilby.Props.polyDefaults_spec",
    "Bilby.Props.ptmcmc_read",
    "Bilby.Props.ptmcmc_burn_partial",
    "Bilby.Props.ptmcmc_burn_violated",
    "Bilby.Props.ptmcmc_options",
    "Bilby.Props.cpnestInit_some",
    "Bilby.Props.cpnestInit_cases",
    "Bilby.Props.cpnestOutput_spec",
    "Bilby.Props.cpnestCheckpoint_spec",
    "Bilby.Props.emceeFunction_spec",
    "Bilby.Props.emceeInit_spec",
    "Bilby.Props.pos0Accepted_partial",
    "Bilby.Props.pos0Accepted_violated",
    "Bilby.Props.chain_file",
    "Bilby.Props.zeusTranslate_spec",
    "Bilby.Props.zeusStart_violated"
   ],
   "note": "Proved: reading back, burn-in without thinning, defaults, distribution and renaming of options, initial positions. Refuted: burn-in of PTMCMC with thinning; positions in one dimension; the option `start` of zeus."
  },
  {
   "property": "C162",
   "status": "partial",
   "theorems": [
    "Bilby.Props.removeLeadingZero_spec",
    "Bilby.Props.checkMonotonicity_violated",
    "Bilby.Props.enthalpies_spec",
    "Bilby.Props.enthalpies_step",
    "Bilby.Props.extended_spec",
    "Bilby.Props.low_consistent",
    "Bilby.Props.low_enthalpy_violated",
    "Bilby.Props.rebuild_eq",
    "Bilby.Props.eosDerivative_quadratic",
    "Bilby.Props.causalSpeed_iff",
    "Bilby.Props.causalSpeed_violated",
    "Bilby.Props.tabular_warning",
    "Bilby.Props.tabular_sampling",
    "Bilby.Props.eosName_partial",
    "Bilby.Props.eosName_violated",
    "Bilby.Props.spectral_adiabatic",
    "Bilby.Props.spectral_increasing",
    "Bilby.Props.spectralTable_spec",
    "Bilby.Props.determineXmax_spec",
    "Bilby.Props.determineXmax_violated",
    "Bilby.Props.sampledRange_spec",
    "Bilby.Props.sampledRange_violated",
    "Bilby.Props.stitched_spec",
    "Bilby.Props.stitched_violated",
    "Bilby.Props.units_spec",
    "Bilby.Props.plotRange_spec",
    "Bilby.Props.plot_k2_violated"
   ],
   "note": "Proved: pseudo-enthalpies, extrapolation, rebuilding, differences, adiabatic index, sampled range, stitching to the low density table, units. Refuted: the monotonicity check never fails; the first pseudo-enthalpy; a speed of sound slightly above that of light; names of some files; sampled ranges and stitching without overlap; plots of the Love number."
  },
  {
   "property": "C163",
   "status": "partial",
   "theorems": [
    "Bilby.Props.tov_solution",
    "Bilby.Props.tov_start",
    "Bilby.Props.tov_centre",
    "Bilby.Props.k2_published",
    "Bilby.Props.k2_newtonian",
    "Bilby.Props.starOf_spec",
    "Bilby.Props.family_spec",
    "Bilby.Props.family_violated",
    "Bilby.Props.lastThree_partial",
    "Bilby.Props.lastThree_violated",
    "Bilby.Props.lambdaFromMass_node"
   ],
   "note": "Proved: equations, expansion at the centre to second order, Love number and its limit, families, maximum mass, interpolation in mass. Refuted: equal masses at the end of a family; the parabola when the second mass is already smaller."
  },
  {
   "property": "C164",
   "status": "partial",
   "theorems": [
    "Bilby.Props.strainSame_self",
    "Bilby.Props.strainSame_sound",
    "Bilby.Props.strainSame_iff",
    "Bilby.Props.strainSame_notches_violated",
    "Bilby.Props.strainSame_read_violated",
    "Bilby.Props.timeWithinData_iff",
    "Bilby.Props.notchCheck_eq",
    "Bilby.Props.notchListArg_tuples",
    "Bilby.Props.notchListArg_empty",
    "Bilby.Props.notchListArg_violated",
    "Bilby.Props.lowPass_nyquist",
    "Bilby.Props.lowPass_time",
    "Bilby.Props.lowPass_violated",
    "Bilby.Props.toTimeSeries_times",
    "Bilby.Props.toFrequencySeries_partial",
    "Bilby.Props.toFrequencySeries_violated",
    "Bilby.Props.asdAt_sq"
   ],
   "note": "Proved: soundness of the comparison, interval of times, notches, filtering before the transformation, times of exported series, frequencies for an even number of samples. Refuted: notches are not compared; reading the frequency domain changes the comparison; made notch lists are rejected; filtering after the transformation leaves the domains in disagreement; the spacing for an odd number of samples."
  },
  {
   "property": "C165",
   "status": "partial",
   "theorems": [
    "Bilby.Props.safeDuration_spec",
    "Bilby.Props.safeDuration_violated",
    "Bilby.Props.injectGwpy_sample",
    "Bilby.Props.injectGwpy_modes",
    "Bilby.Props.injectGwpy_short_violated",
    "Bilby.Props.injectGwpy_wrap_violated",
    "Bilby.Props.injectMeta_optimal",
    "Bilby.Props.injectMeta_violated",
    "Bilby.Props.checkDuration_accepted",
    "Bilby.Props.checkDuration_rejected",
    "Bilby.Props.checkDuration_round_violated",
    "Bilby.Props.checkDuration_noMasses",
    "Bilby.Props.checkDuration_missing_violated",
    "Bilby.Props.injectSignal_spec",
    "Bilby.Props.fakeStart_spec",
    "Bilby.Props.fakeStart_given",
    "Bilby.Props.fakeStart_violated",
    "Bilby.Props.loadCache_iff",
    "Bilby.Props.loadCache_violated",
    "Bilby.Props.channelDetector_spec",
    "Bilby.Props.channelDetector_violated"
   ],
   "note": "Proved: safe durations, the place of the signal, the optimal signal-to-noise ratio by the shift theorem, durations to half of a tenth of a second, precedence, segments, frames, channels. Refuted: doubled powers of two; short data accepted; arrival outside the data wraps around; the matched-filter value; rounding and missing masses in the check; short simulated segments; frames exactly covering; colons in names."
  },
  {
   "property": "C166",
   "status": "partial",
   "theorems": [
    "Bilby.Props.parse_line",
    "Bilby.Props.parse_error",
    "Bilby.Props.parse_violated",
    "Bilby.Props.strip_spec",
    "Bilby.Props.dispatch_spec",
    "Bilby.Props.loadIfo_spec",
    "Bilby.Props.emptyIfo_spec",
    "Bilby.Props.emptyIfo_violated",
    "Bilby.Props.validate_spec",
    "Bilby.Props.psdInit_arrays",
    "Bilby.Props.psdInit_mismatch",
    "Bilby.Props.psdInit_files",
    "Bilby.Props.warn_iff",
    "Bilby.Props.psdSame_density",
    "Bilby.Props.psdSame_violated"
   ],
   "note": "Proved: reading of lines, white space, shapes, errors, precedence of arrays and files, warnings, comparison of new objects. Refuted: blank and indented comment lines; the error for an unknown shape; the comparison after a change of the frequency array."
  },
  {
   "property": "C167",
   "status": "partial",
   "theorems": [
    "Bilby.Props.basic_eq",
    "Bilby.Props.basic_max",
    "Bilby.Props.basic_failed",
    "Bilby.Props.snrs_add",
    "Bilby.Props.snrs_total",
    "Bilby.Props.perDetector_sum",
    "Bilby.Props.perDetector_phase_violated",
    "Bilby.Props.perDetector_failed_violated",
    "Bilby.Props.setup_none",
    "Bilby.Props.setup_marginalised",
    "Bilby.Props.setup_fixed",
    "Bilby.Props.setup_second_violated",
    "Bilby.Props.setup_redshift",
    "Bilby.Props.setup_default",
    "Bilby.Props.setup_distance_violated",
    "Bilby.Props.syncAttr_eq",
    "Bilby.Props.syncAttr_violated",
    "Bilby.Props.setFrame_pair",
    "Bilby.Props.setFrame_violated"
   ],
   "note": "Proved: the equality of the basic likelihood with the other, its maximum, sums over detectors, the priors of the likelihood and of the user for all combinations, defaults, conversion, errors, reference frames. Refuted: values of detectors with phase marginalisation and for failed waveforms; a second likelihood from the same priors; the announced default for the distance; the promised error of the generator; frames of detectors with long names."
  },
  {
   "property": "C168",
   "status": "partial",
   "theorems": [
    "Bilby.Props.banded_options",
    "Bilby.Props.timeOffset_covers",
    "Bilby.Props.deltaFEnd_covers",
    "Bilby.Props.deltaFEnd_violated",
    "Bilby.Props.standard_violated",
    "Bilby.Props.safety_covers",
    "Bilby.Props.table_roundtrip",
    "Bilby.Props.weightKeys_modes",
    "Bilby.Props.weights_roundtrip",
    "Bilby.Props.weights_order_violated",
    "Bilby.Props.fiducial_spec",
    "Bilby.Props.maximumFrequency_spec",
    "Bilby.Props.maximumFrequency_violated",
    "Bilby.Props.bounds_aligned",
    "Bilby.Props.dictOf_listOf",
    "Bilby.Props.findMaximum_spec",
    "Bilby.Props.findMaximum_jitter_violated",
    "Bilby.Props.findMaximum_violated"
   ],
   "note": "Proved: options, the default offset and taper for every arrival, weights restored in every order with the highest mode first, fiducial values, the cut, dictionaries and lists of parameters, consistency after the search. Refuted: priors ending near the end of the data; the standard values; weights in other orders; the error for failed waveforms; the search with time jitter; the likelihood not decreasing."
  },
  {
   "property": "C169",
   "status": "partial",
   "theorems": [
    "Bilby.Props.isNonempty_spec",
    "Bilby.Props.measuredSet_iff",
    "Bilby.Props.sets_nested",
    "Bilby.Props.make_spec",
    "Bilby.Props.make_zero",
    "Bilby.Props.gwCycle_ok_iff",
    "Bilby.Props.gwCycle_fails_violated",
    "Bilby.Props.gwCycle_requirements",
    "Bilby.Props.gwCycle_covers",
    "Bilby.Props.gwCycle_covers_violated",
    "Bilby.Props.cycle_proposals",
    "Bilby.Props.defaultCycle",
    "Bilby.Props.removeNamed_spec",
    "Bilby.Props.normalised_spec",
    "Bilby.Props.cycleLength_bounds",
    "Bilby.Props.cycleLength_default",
    "Bilby.Props.removeAll_violated",
    "Bilby.Props.drawCycle_misses_violated",
    "Bilby.Props.cosTheta_spec",
    "Bilby.Props.deltaPhase_spec",
    "Bilby.Props.phase_roundtrip",
    "Bilby.Props.jump_delta",
    "Bilby.Props.reverse_spec",
    "Bilby.Props.phaseKey_fixed_violated",
    "Bilby.Props.jump_inclination_violated",
    "Bilby.Props.acceptanceRatio_spec",
    "Bilby.Props.validatePrior_spec",
    "Bilby.Props.validate_none_violated",
    "Bilby.Props.validate_samples_violated"
   ],
   "note": "Proved: exactly when the cycle for gravitational waves can be built, coverage of sampled parameters, weights, lengths, removal by name, phases, acceptance ratio, validation. Refuted: masses with only the second spin, fixed calibration or spins in the plane, calibration alone, names with `recalib` only, removal of everything, each proposal in the drawn cycle, a fixed phase with sampled `delta_phase`, a fixed inclination, a Boolean from the validation, signals missed by samples."
  },
  {
   "property": "C170",
   "status": "partial",
   "theorems": [
    "Bilby.Props.linPoints_spec",
    "Bilby.Props.linPoints_increasing",
    "Bilby.Props.gridSize_spec",
    "Bilby.Props.gridEvaluate_spec",
    "Bilby.Props.evaluate_two",
    "Bilby.Props.evaluate_fixed_violated",
    "Bilby.Props.evaluate_list_violated",
    "Bilby.Props.linPoints_one",
    "Bilby.Props.expMax_spec",
    "Bilby.Props.gridFile_roundtrip",
    "Bilby.Props.gridFile_others",
    "Bilby.Props.gridFile_label_violated",
    "Bilby.Props.gridFile_lost_violated",
    "Bilby.Props.fileName_spec",
    "Bilby.Props.fileName_inj"
   ],
   "note": "Proved: points, the value of every entry, exponentials, names and contents of files. Refuted: fixed parameters, points in Python lists, the label of a grid made without saving or read from a file, the older file after a failed save."
  },
  {
   "property": "C171",
   "status": "partial",
   "theorems": [
    "Bilby.Props.fft_stateless",
    "Bilby.Props.fft_nonneg",
    "Bilby.Props.fft_norm",
    "Bilby.Props.fft_norm_exact",
    "Bilby.Props.fft_one_band_violated",
    "Bilby.Props.fft_slices",
    "Bilby.Props.fft_strain"
   ],
   "note": "Proved: the power spectrum times the truncated correlation is exact for padded samples, hence the squared norm of every band; exactness for short signals; independence of earlier evaluations; slices and waveform frequencies. Refuted: a single band that reaches beyond the Nyquist frequency."
  },
  {
   "property": "C172",
   "status": "partial",
   "theorems": [
    "Bilby.Props.diff_moves",
    "Bilby.Props.diff_reversible",
    "Bilby.Props.diff_symmetric",
    "Bilby.Props.diff_rows",
    "Bilby.Props.diff_mix",
    "Bilby.Props.diff_gamma",
    "Bilby.Props.diff_default_violated",
    "Bilby.Props.volumetric_ball",
    "Bilby.Props.volumetric_isotropic",
    "Bilby.Props.volumetric_moves",
    "Bilby.Props.proposals_weighted",
    "Bilby.Props.live_needed",
    "Bilby.Props.proposals_resolved",
    "Bilby.Props.proposals_iterables_violated",
    "Bilby.Props.rebuild_iff"
   ],
   "note": "Proved: displacements, reversibility and symmetry over pairs, law of the factor, radial law and isotropy of volumetric proposals, weights of a dictionary, flags for rebuilding. Refuted: the documented default of `scale`; sets and strings of proposals."
  },
  {
   "property": "C173",
   "status": "partial",
   "theorems": [
    "Bilby.Props.pp_fraction",
    "Bilby.Props.pp_ends",
    "Bilby.Props.pp_end_violated",
    "Bilby.Props.pp_binomial",
    "Bilby.Props.pp_band",
    "Bilby.Props.pp_discrete",
    "Bilby.Props.pp_intervals",
    "Bilby.Props.pp_lines",
    "Bilby.Props.labels_sane"
   ],
   "note": "Proved: monotone curves, binomial law, coverage of the bands, deviation for finitely many samples, arguments, labels. Refuted: that the curve reaches one at the end of the range."
  },
  {
   "property": "C174",
   "status": "partial",
   "theorems": [
    "Bilby.Props.roq_mb_span",
    "Bilby.Props.roq_mb_linear",
    "Bilby.Props.roq_mb_highest_violated",
    "Bilby.Props.roq_mb_quadratic",
    "Bilby.Props.roq_mb_bins"
   ],
   "note": "Proved: equality with the usual products for band-limited series with whole numbers of samples, bins. Refuted: the product at the highest frequency."
  },
  {
   "property": "C175",
   "status": "partial",
   "theorems": [
    "Bilby.Props.roq_basis_file",
    "Bilby.Props.roq_basis_array",
    "Bilby.Props.roq_basis_orientation_violated",
    "Bilby.Props.roq_basis_hdf5",
    "Bilby.Props.roq_basis_hdf5_violated",
    "Bilby.Props.roq_params",
    "Bilby.Props.roq_numbers",
    "Bilby.Props.roq_single_nodes",
    "Bilby.Props.roq_single_waveform",
    "Bilby.Props.roq_nodes_violated",
    "Bilby.Props.roq_time_sample",
    "Bilby.Props.roq_time_logL"
   ],
   "note": "Proved: formats, transposition, merged band, numbers, nodes, law of the times. Refuted: equality of an array and the file with it, a file of the name hdf5, nodes given twice."
  },
  {
   "property": "C176",
   "status": "partial",
   "theorems": [
    "Bilby.Props.mcmc_write_keeps",
    "Bilby.Props.mcmc_restart",
    "Bilby.Props.mcmc_no_pool",
    "Bilby.Props.mcmc_unwritable",
    "Bilby.Props.mcmc_changed",
    "Bilby.Props.mcmc_no_resume_violated",
    "Bilby.Props.mcmc_settings_violated",
    "Bilby.Props.mcmc_due",
    "Bilby.Props.mcmc_recent",
    "Bilby.Props.mcmc_apart",
    "Bilby.Props.mcmc_chains",
    "Bilby.Props.mcmc_stats",
    "Bilby.Props.mcmc_time_violated",
    "Bilby.Props.mcmc_new_settings"
   ],
   "note": "Proved: running sampler untouched, restart, error for other tempering, age and distance of check points, chains and evaluations. Refuted: other tempering without resume, other proposals or evidence on a restart, seconds of runs longer than a day."
  },
  {
   "property": "C177",
   "status": "partial",
   "theorems": [
    "Bilby.Props.figure_samples",
    "Bilby.Props.figure_frequencies",
    "Bilby.Props.figure_frequencies_violated",
    "Bilby.Props.figure_times",
    "Bilby.Props.figure_band",
    "Bilby.Props.figure_mean_violated",
    "Bilby.Props.figure_injection_factor",
    "Bilby.Props.figure_injection_violated",
    "Bilby.Props.figure_nodes",
    "Bilby.Props.figure_bars",
    "Bilby.Props.figure_bars_violated",
    "Bilby.Props.figure_level_violated"
   ],
   "note": "Proved: samples, frequencies, times, band, factor between waveform and injection, pairing of nodes. Refuted: about 4000 frequencies, mean inside the band, injection on the waveform, calibration figure for skewed posteriors, its level."
  },
  {
   "property": "C178",
   "status": "partial",
   "theorems": [
    "Bilby.Props.corner_values",
    "Bilby.Props.corner_injection",
    "Bilby.Props.corner_lists",
    "Bilby.Props.corner_list_violated",
    "Bilby.Props.corner_off_violated",
    "Bilby.Props.corner_truths_violated",
    "Bilby.Props.corner_drawn",
    "Bilby.Props.corner_single_violated",
    "Bilby.Props.corner_multiple",
    "Bilby.Props.figure_labels",
    "Bilby.Props.figure_truth",
    "Bilby.Props.figure_truth_violated",
    "Bilby.Props.figure_priors",
    "Bilby.Props.figure_priors_violated",
    "Bilby.Props.figure_walkers",
    "Bilby.Props.figure_walkers_violated",
    "Bilby.Props.figure_maximum",
    "Bilby.Props.figure_maximum_violated",
    "Bilby.Props.figure_result_labels",
    "Bilby.Props.figure_result_labels_violated",
    "Bilby.Props.figure_arviz_prior"
   ],
   "note": "Proved: the arguments of corner plots, labels, true values, priors, walkers of several parameters, maximum for rows numbered in order. Refuted: injection with a list of parameters, values turned off with a dictionary, list of values alone, values of one parameter, truth=True, priors of results without them, walkers of one parameter, maximum for other indices, labels after priors are replaced."
  },
  {
   "property": "C179",
   "status": "partial",
   "theorems": [
    "Bilby.Props.gp_celerite",
    "Bilby.Props.gp_george",
    "Bilby.Props.gp_celerite_violated",
    "Bilby.Props.gp_set",
    "Bilby.Props.gp_unknown_violated",
    "Bilby.Props.gp_mean",
    "Bilby.Props.gp_mean_violated"
   ],
   "note": "Proved: values after updates for celerite, any order for george, set_parameters, mean models. Refuted: other order of the dictionary for celerite, unknown names for george, package of mean models for george."
  },
  {
   "property": "C180",
   "status": "partial",
   "theorems": [
    "Bilby.Props.ptemcee_mean",
    "Bilby.Props.ptemcee_evidence",
    "Bilby.Props.ptemcee_constant",
    "Bilby.Props.ptemcee_hot_violated",
    "Bilby.Props.ptemcee_infinite_violated",
    "Bilby.Props.ptemcee_used",
    "Bilby.Props.ptemcee_linear"
   ],
   "note": "Proved: means, bound between the ends of the ladder, constant and linear means, which temperatures are used. Refuted: ladders that do not reach zero, one temperature, infinite means."
  },
  {
   "property": "C181",
   "status": "partial",
   "theorems": [
    "Bilby.Props.registry_items",
    "Bilby.Props.registry_distinct",
    "Bilby.Props.registry_contains",
    "Bilby.Props.registry_inside_violated",
    "Bilby.Props.registry_capital_violated",
    "Bilby.Props.registry_verify",
    "Bilby.Props.registry_verify_errors",
    "Bilby.Props.registry_npool",
    "Bilby.Props.fake_values",
    "Bilby.Props.fake_missing_violated",
    "Bilby.Props.fake_stored_violated",
    "Bilby.Props.fake_arguments_violated"
   ],
   "note": "Proved: listed names are distinct and found, contained names are those found, order of plug-ins, checks, size of the pool, values of the fake sampler. Refuted: names with the prefix inside or capital letters, fake sampler with files without likelihoods, likelihoods of its rows, its arguments."
  },
  {
   "property": "C182",
   "status": "partial",
   "theorems": [
    "Bilby.Props.sequence_values",
    "Bilby.Props.sequence_failures",
    "Bilby.Props.roq_failures_violated",
    "Bilby.Props.roq_values",
    "Bilby.Props.dictionary_settings",
    "Bilby.Props.dictionary_caller_violated",
    "Bilby.Props.family_check",
    "Bilby.Props.family_check_violated",
    "Bilby.Props.eos_prior",
    "Bilby.Props.identity_map"
   ],
   "note": "Proved: values and errors at chosen frequencies, waveforms at the nodes of quadratures, settings in the dictionary, increase over the first seven points, prior of the check, identity map. Refuted: caught errors with quadratures, dictionary of the caller, increase at the eighth point."
  },
  {
   "property": "C183",
   "status": "partial",
   "theorems": [
    "Bilby.Props.jensenShannon_spec",
    "Bilby.Props.jensenShannon_symm",
    "Bilby.Props.jensenShannon_scale",
    "Bilby.Props.calculateJs_spec",
    "Bilby.Props.calculateJs_bits_violated",
    "Bilby.Props.grid_partial",
    "Bilby.Props.columnJs_range_violated",
    "Bilby.Props.calculateJs_far_violated",
    "Bilby.Props.epochs_spec",
    "Bilby.Props.epochs_few",
    "Bilby.Props.train_far_violated",
    "Bilby.Props.train_unconverged_violated",
    "Bilby.Props.train_spec",
    "Bilby.Props.propose_spec",
    "Bilby.Props.run_cycle",
    "Bilby.Props.run_retry_violated",
    "Bilby.Props.init_spec",
    "Bilby.Props.threshold_violated",
    "Bilby.Props.setupFlow_spec",
    "Bilby.Props.couplings_alternate",
    "Bilby.Props.couplings_one_violated"
   ],
   "note": "Proved: bounds, symmetry and extremes of the divergence, maximum over parameters, first multiple of ten below the threshold, counters, fallback, number of proposals between trainings, alternating couplings. Refuted: unit of bits, range of the comparison, draws far above the chain, flow that did not converge, trainings after exceptions, threshold for short chains."
  },
  {
   "property": "C184",
   "status": "partial",
   "theorems": [
    "Bilby.Props.chosen_spec",
    "Bilby.Props.readList_lenient",
    "Bilby.Props.readList_strict",
    "Bilby.Props.readList_level_violated",
    "Bilby.Props.pickleName_fallback",
    "Bilby.Props.pickleName_directory_violated",
    "Bilby.Props.readList_partial_file_violated",
    "Bilby.Props.construct_spec",
    "Bilby.Props.construct_default_violated",
    "Bilby.Props.append_set_violated",
    "Bilby.Props.combineLevel_violated",
    "Bilby.Props.combinedErr_between",
    "Bilby.Props.combinedErr_none",
    "Bilby.Props.combinedErr_equal_violated",
    "Bilby.Props.combinedErr_negative_violated"
   ],
   "note": "Proved: choice of the file, lenient and strict lists, name of the pickled file, construction, bounds of the combined error. Refuted: unknown levels, directories with a dot, files written in part, default of the constructor, sets of results, level of the list, error of equal runs, error with a run without one."
  },
  {
   "property": "C185",
   "status": "partial",
   "theorems": [
    "Bilby.Props.attribute_fetch",
    "Bilby.Props.saved_attributes",
    "Bilby.Props.saved_roundtrip",
    "Bilby.Props.saved_max_act_violated",
    "Bilby.Props.constructed",
    "Bilby.Props.constructed_labels",
    "Bilby.Props.labels_without_priors_violated",
    "Bilby.Props.saved_format",
    "Bilby.Props.hdf5_class",
    "Bilby.Props.formats_roundtrip",
    "Bilby.Props.hdf5_no_posterior_violated",
    "Bilby.Props.hdf5_class_violated",
    "Bilby.Props.json_errors",
    "Bilby.Props.summary_lines",
    "Bilby.Props.summary_empty_violated",
    "Bilby.Props.written_columns",
    "Bilby.Props.written_real",
    "Bilby.Props.written_complex",
    "Bilby.Props.written_overwrites_violated",
    "Bilby.Props.result_defaults"
   ],
   "note": "Proved: round trip of the attributes with priors, in both formats, what the constructor stores, labels, which attributes raise and are saved, class on reading, errors of reading, lines of the summary, columns of the written posterior. Refuted: autocorrelation time, labels without priors, results without posterior in hdf5, classes that have left their module, empty summary, columns named like a modulus."
  },
  {
   "property": "C186",
   "status": "partial",
   "theorems": [
    "Bilby.Props.sample_parameters",
    "Bilby.Props.sample_assign",
    "Bilby.Props.sample_new_entry_violated",
    "Bilby.Props.sample_eq_violated",
    "Bilby.Props.sample_copy",
    "Bilby.Props.random_row",
    "Bilby.Props.tau_infinite",
    "Bilby.Props.tau_short",
    "Bilby.Props.tau_number",
    "Bilby.Props.samplers_restored",
    "Bilby.Props.samplers_refused",
    "Bilby.Props.tempered_column",
    "Bilby.Props.tempered_lists",
    "Bilby.Props.samplers_partition",
    "Bilby.Props.rejection_count",
    "Bilby.Props.swap_ratio",
    "Bilby.Props.thermo_arrays",
    "Bilby.Props.thermo_mean",
    "Bilby.Props.evidence_method",
    "Bilby.Props.bootstrap_rows",
    "Bilby.Props.bootstrap_ends_violated",
    "Bilby.Props.bootstrap_error"
   ],
   "note": "Proved: parameters of samples, assignment and copy, lowest random row, infinite and finite autocorrelation times, samplers put back in any order, columns, partition by temperature, counts and ratios, arrays of the thermodynamic integral, method of the evidence, rows and error of the bootstrap. Refuted: new entries of samples, equality of samples, first and last row in the bootstrap."
  },
  {
   "property": "C187",
   "status": "partial",
   "theorems": [
    "Bilby.Props.emcee_function",
    "Bilby.Props.emcee_init",
    "Bilby.Props.emcee_old",
    "Bilby.Props.kombine_init",
    "Bilby.Props.kombine_burnin",
    "Bilby.Props.kombine_function",
    "Bilby.Props.zeus_arguments",
    "Bilby.Props.zeus_setup",
    "Bilby.Props.ptemcee_arguments",
    "Bilby.Props.pos0_frame",
    "Bilby.Props.pos0_array",
    "Bilby.Props.pos0_single_violated",
    "Bilby.Props.pos0_unchecked_violated",
    "Bilby.Props.ptemcee_start",
    "Bilby.Props.ptemcee_start_dict",
    "Bilby.Props.ptemcee_logl",
    "Bilby.Props.wrap_point",
    "Bilby.Props.rename_option",
    "Bilby.Props.ptemcee_missing"
   ],
   "note": "Proved: options of emcee before and after version 3, of kombine with its burn-in, of zeus and ptemcee; data frames, arrays and dictionaries of starting points; evaluation and wrapping of ptemcee. Refuted: arrays of starting points for one parameter, checking of starting points."
  },
  {
   "property": "C188",
   "status": "partial",
   "theorems": [
    "Bilby.Props.prior_eq_iff",
    "Bilby.Props.prior_eq_symm",
    "Bilby.Props.prior_eq_refl",
    "Bilby.Props.prior_eq_nan_violated",
    "Bilby.Props.interped_eq_violated",
    "Bilby.Props.interped_eq_iff",
    "Bilby.Props.dist_eq_iff",
    "Bilby.Props.dist_eq_refl",
    "Bilby.Props.dist_eq_violated",
    "Bilby.Props.dist_eq_used_violated",
    "Bilby.Props.geometry_eq_iff",
    "Bilby.Props.geometry_eq_observable",
    "Bilby.Props.calibration_eq_plain",
    "Bilby.Props.spline_eq_violated",
    "Bilby.Props.spline_eq_self",
    "Bilby.Props.detector_eq_iff",
    "Bilby.Props.detector_eq_differ",
    "Bilby.Props.prior_eq_class",
    "Bilby.Props.prior_eq_array_violated",
    "Bilby.Props.healpix_eq_skipped"
   ],
   "note": "Proved: equality of priors with reflexivity and symmetry, of interpolated priors, joint distributions, geometries with what can be read from them, calibration models, detectors. Refuted: arrays with not-a-number, names of interpolated priors, symmetry and exactness for joint distributions and their use, spline calibration."
  },
  {
   "property": "C189",
   "status": "partial",
   "theorems": [
    "Bilby.Props.averaged_later",
    "Bilby.Props.reconstruct_joint",
    "Bilby.Props.reconstruct_nothing",
    "Bilby.Props.reconstruct_keeps",
    "Bilby.Props.reconstruct_values",
    "Bilby.Props.reconstruct_sky_violated",
    "Bilby.Props.time_jitter"
   ],
   "note": "Proved: what each step averages over, joint distribution for every combination of marginalisations, values kept and changed. Refuted: sky position after drawing the time alone."
  },
  {
   "property": "C190",
   "status": "partial",
   "theorems": [
    "Bilby.Props.signals_during",
    "Bilby.Props.signals_restored",
    "Bilby.Props.signals_outcome",
    "Bilby.Props.signals_thread",
    "Bilby.Props.signals_raised_violated",
    "Bilby.Props.signals_platform_violated",
    "Bilby.Props.signals_nested",
    "Bilby.Props.logger_level",
    "Bilby.Props.logger_calls",
    "Bilby.Props.logger_second_violated",
    "Bilby.Props.logger_terminal_violated",
    "Bilby.Props.command_level",
    "Bilby.Props.command_output",
    "Bilby.Props.command_silent_violated",
    "Bilby.Props.likelihood_count",
    "Bilby.Props.autocorrelation_longest",
    "Bilby.Props.autocorrelation_error",
    "Bilby.Props.autocorrelation_nan_violated",
    "Bilby.Props.basename_slash",
    "Bilby.Props.basename_default",
    "Bilby.Props.temporary_directory",
    "Bilby.Props.autocorrelation_negative"
   ],
   "note": "Proved: handlers during and after, level and handlers after any sequence of calls, errors of commands, longest autocorrelation time, base names. Refuted: handlers after exceptions or without SIGALRM, second label, terminal handler beside a file, silent failure, nan."
  },
  {
   "property": "C191",
   "status": "partial",
   "theorems": [
    "Bilby.Props.distance_redshift_distance",
    "Bilby.Props.redshift_distance_redshift",
    "Bilby.Props.redshift_monotone",
    "Bilby.Props.luminosity_comoving",
    "Bilby.Props.luminosity_of_comoving",
    "Bilby.Props.distance_zero_violated",
    "Bilby.Props.source_entries",
    "Bilby.Props.source_masses_consistent",
    "Bilby.Props.source_round_trip",
    "Bilby.Props.source_idempotent",
    "Bilby.Props.source_missing",
    "Bilby.Props.source_redshift_violated",
    "Bilby.Props.source_replaced_violated",
    "Bilby.Props.source_error_violated",
    "Bilby.Props.redshift_range"
   ],
   "note": "Proved: round trips, order, entries of the source frame, consistency of masses, idempotence. Refuted: distance 0, redshift alone, redshift replaced, error for distances out of reach."
  },
  {
   "property": "C192",
   "status": "partial",
   "theorems": [
    "Bilby.Props.nested_value",
    "Bilby.Props.nested_missing",
    "Bilby.Props.run_info",
    "Bilby.Props.result_likelihood",
    "Bilby.Props.result_attributes",
    "Bilby.Props.result_waveform",
    "Bilby.Props.result_interferometers",
    "Bilby.Props.result_interferometers_violated",
    "Bilby.Props.injection_properties",
    "Bilby.Props.injection_stored",
    "Bilby.Props.injection_none_violated",
    "Bilby.Props.attribute_none_violated",
    "Bilby.Props.result_object_violated",
    "Bilby.Props.set_meta",
    "Bilby.Props.attributes_read",
    "Bilby.Props.interferometers_other"
   ],
   "note": "Proved: what is read is what likelihood and detectors wrote, missing entries, order of detectors, last injection. Refuted: detectors of one name, detectors without injection, no meta data, sampler objects."
  },
  {
   "property": "C193",
   "status": "partial",
   "theorems": [
    "Bilby.Props.directory_default",
    "Bilby.Props.directory_violated",
    "Bilby.Props.directory_again",
    "Bilby.Props.directory_others",
    "Bilby.Props.ultranest_directory",
    "Bilby.Props.ultranest_stored_violated",
    "Bilby.Props.ultranest_again_violated",
    "Bilby.Props.ultranest_once",
    "Bilby.Props.ultranest_reactive",
    "Bilby.Props.ultranest_live",
    "Bilby.Props.ultranest_live_violated",
    "Bilby.Props.polychord_settings",
    "Bilby.Props.polychord_defaults_violated",
    "Bilby.Props.dnest_options",
    "Bilby.Props.dnest_ignored_violated",
    "Bilby.Props.nestle_options",
    "Bilby.Props.nestle_unknown",
    "Bilby.Props.nestle_callback_violated",
    "Bilby.Props.nessai_options",
    "Bilby.Props.nessai_config_violated",
    "Bilby.Props.seed_aliases",
    "Bilby.Props.seed_own_violated",
    "Bilby.Props.directory_none",
    "Bilby.Props.ultranest_step_sampler"
   ],
   "note": "Proved: values kept, directories, no option twice, what each sampler gets, seeds under general names. Refuted: directory of the user, second run and stored directory of ultranest, options dropped by ultranest, PolyChord, DNest4, nestle and nessai, seeds under the sampler's name."
  },
  {
   "property": "C194",
   "status": "partial",
   "theorems": [
    "Bilby.Props.decode_read",
    "Bilby.Props.decode_plain",
    "Bilby.Props.decode_agree",
    "Bilby.Props.decode_inner_violated",
    "Bilby.Props.decode_list_violated",
    "Bilby.Props.cosmology_read",
    "Bilby.Props.cosmology_name_violated",
    "Bilby.Props.cosmology_class_violated",
    "Bilby.Props.quantity_read",
    "Bilby.Props.loaded_modules",
    "Bilby.Props.package_list",
    "Bilby.Props.package_pip_violated",
    "Bilby.Props.decode_in_list"
   ],
   "note": "Proved: decoding is idempotent, keeps plain data, and agrees with reading for shallow data; cosmologies, quantities, modules, order of sources. Refuted: nested objects, lists, names and foreign classes of cosmologies, failing pip."
  },
  {
   "property": "C195",
   "status": "partial",
   "theorems": [
    "Bilby.Props.detector_pickle",
    "Bilby.Props.detector_pickle_directory_violated",
    "Bilby.Props.detector_pickle_label_violated",
    "Bilby.Props.list_pickle",
    "Bilby.Props.pickle_class",
    "Bilby.Props.triangular_pickle_violated",
    "Bilby.Props.data_names",
    "Bilby.Props.data_names_violated",
    "Bilby.Props.data_saved",
    "Bilby.Props.data_directory_violated",
    "Bilby.Props.density_reread",
    "Bilby.Props.density_window_violated",
    "Bilby.Props.weights_named",
    "Bilby.Props.weights_read",
    "Bilby.Props.weights_npz_extension",
    "Bilby.Props.weights_name_violated",
    "Bilby.Props.weights_npz_name_violated",
    "Bilby.Props.pickle_missing"
   ],
   "note": "Proved: reading back, other files unchanged, names distinct, densities, formats. Refuted: directory and label of detectors, triangular detectors, directory of data, labels, window counted twice, formats inside names."
  },
  {
   "property": "C196",
   "status": "partial",
   "theorems": [
    "Bilby.Props.constraints_evaluated",
    "Bilby.Props.sampler_constraints",
    "Bilby.Props.sampler_draws",
    "Bilby.Props.draws_constrained",
    "Bilby.Props.sampler_constraints_free",
    "Bilby.Props.sampler_agree",
    "Bilby.Props.sampler_constraints_violated",
    "Bilby.Props.constraint_unknown_violated",
    "Bilby.Props.point_value"
   ],
   "note": "Proved: meaning of the value, points of samplers for binaries, draws, other conversions without fixed parameters, agreement of implementations. Refuted: conversions of the user with fixed parameters, unknown quantities."
  },
  {
   "property": "C197",
   "status": "partial",
   "theorems": [
    "Bilby.Props.fill_keeps",
    "Bilby.Props.fill_adds_only_missing",
    "Bilby.Props.fill_adds_defaults",
    "Bilby.Props.fill_without_file",
    "Bilby.Props.fill_base",
    "Bilby.Props.fill_base_order",
    "Bilby.Props.fill_no_excess",
    "Bilby.Props.fill_complete",
    "Bilby.Props.fill_with_room_partial",
    "Bilby.Props.fill_order_violated",
    "Bilby.Props.fill_fixed_masses_violated",
    "Bilby.Props.as_array_rows",
    "Bilby.Props.as_array_single_violated",
    "Bilby.Props.as_array_many_violated",
    "Bilby.Props.as_array_empty_violated",
    "Bilby.Props.kinds_of_others"
   ],
   "note": "Proved: entries kept, only defaults added, no excess in sets, completeness, order for plain dictionaries, rows of arrays. Refuted: order for binaries, fixed parameters, constraints among the keys."
  },
  {
   "property": "C198",
   "status": "proved",
   "theorems": [
    "Bilby.Props.step_keeps_posterior",
    "Bilby.Props.law_after_unique",
    "Bilby.Props.run_keeps_posterior",
    "Bilby.Props.step_is_walk",
    "Bilby.Props.swap_keeps_posterior"
   ],
   "note": ""
  },
  {
   "property": "C199",
   "status": "partial",
   "theorems": [
    "Bilby.Props.walk_is_steps",
    "Bilby.Props.diff_step_keeps_prior",
    "Bilby.Props.volumetric_step_keeps_prior",
    "Bilby.Props.walk_keeps_prior",
    "Bilby.Props.clustered_diff_step_keeps_prior",
    "Bilby.Props.clustered_volumetric_step_keeps_prior",
    "Bilby.Props.reflective_walk_keeps_prior_violated"
   ],
   "note": "Proved: differential evolution, volumetric proposals, walks of any length. Refuted: two reflective parameters."
  },
  {
   "property": "C200",
   "status": "partial",
   "theorems": [
    "Bilby.Props.prior_label",
    "Bilby.Props.prior_label_roundtrip",
    "Bilby.Props.prior_label_assigned",
    "Bilby.Props.nameless_label_violated",
    "Bilby.Props.renamed_label_violated",
    "Bilby.Props.label_table_violated",
    "Bilby.Props.result_labels",
    "Bilby.Props.result_labels_kept",
    "Bilby.Props.figure_shows_labels",
    "Bilby.Props.spaces_spec",
    "Bilby.Props.legend_labels",
    "Bilby.Props.result_labels_stale_violated"
   ],
   "note": "Proved: labels of priors, round trips, labels of results, figures and legends. Refuted: priors without name, renamed priors, dependence on imports, priors assigned to results later."
  },
  {
   "property": "C201",
   "status": "partial",
   "theorems": [
    "Bilby.Props.reference_frequency_checked",
    "Bilby.Props.reference_frequency_accepts",
    "Bilby.Props.reference_frequency_defaults_violated",
    "Bilby.Props.reference_frequency_default"
   ],
   "note": "Proved: equal frequencies in use, what is accepted and refused. Refuted: arguments left to their defaults."
  },
  {
   "property": "C202",
   "status": "proved",
   "theorems": [
    "Bilby.Props.constrained_law",
    "Bilby.Props.constrained_returns",
    "Bilby.Props.constrained_one_law",
    "Bilby.Props.constrained_one_returns"
   ],
   "note": ""
  },
  {
   "property": "C203",
   "status": "partial",
   "theorems": [
    "Bilby.Props.estimate_is_ratio",
    "Bilby.Props.estimate_comes",
    "Bilby.Props.estimate_ge_one",
    "Bilby.Props.estimate_without_constraints",
    "Bilby.Props.estimate_always_satisfied",
    "Bilby.Props.estimate_of_impossible_constraints_violated",
    "Bilby.Props.estimate_single_rows_violated",
    "Bilby.Props.estimate_comes_surely",
    "Bilby.Props.factor_near_mean",
    "Bilby.Props.factor_of_equal_estimates",
    "Bilby.Props.factor_ge_one",
    "Bilby.Props.factor_scattered_violated",
    "Bilby.Props.fresh_factor",
    "Bilby.Props.factor_without_constraints"
   ],
   "note": "Proved: estimates as ratios, when they come, bounds of the factor. Refuted: impossible constraints, chunks of one row, scattered estimates."
  },
  {
   "property": "C204",
   "status": "partial",
   "theorems": [
    "Bilby.Props.rejection_law",
    "Bilby.Props.rejection_of_labels",
    "Bilby.Props.rejection_expectation",
    "Bilby.Props.rejection_weighted_mean",
    "Bilby.Props.rejection_reweighted_partial",
    "Bilby.Props.rejection_reweighted_violated"
   ],
   "note": "Proved: law of the set of kept rows, expectations, the reweighted law against the largest possible weight. Refuted: the reweighted law for the largest weight of the rows at hand."
  },
  {
   "property": "C205",
   "status": "partial",
   "theorems": [
    "Bilby.Props.reweighted_evidence_mean",
    "Bilby.Props.reweighted_evidence_unbiased",
    "Bilby.Props.reweighted_evidence_violated"
   ],
   "note": "Proved: the expected evidence, unbiasedness. Refuted: models with parameters that the old one does not allow."
  },
  {
   "property": "C206",
   "status": "partial",
   "theorems": [
    "Bilby.Props.hyper_unbiased",
    "Bilby.Props.hyper_log_violated"
   ],
   "note": "Proved: the mean of the exponential. Refuted: the mean of the logarithm."
  },
  {
   "property": "C207",
   "status": "partial",
   "theorems": [
    "Bilby.Props.combined_expectation",
    "Bilby.Props.combined_number",
    "Bilby.Props.combined_mean",
    "Bilby.Props.combined_mean_violated"
   ],
   "note": "Proved: expected sums and numbers of rows, weighted means for runs of equal length. Refuted: weighted means for runs of different lengths."
  },
  {
   "property": "C208",
   "status": "partial",
   "theorems": [
    "Bilby.Props.restart_with_enough",
    "Bilby.Props.restart_steps",
    "Bilby.Props.restart_frozen_violated",
    "Bilby.Props.restart_never_stops_violated"
   ],
   "note": "Proved: enough samples, steps without stop_after_convergence. Refuted: restarts with stop_after_convergence."
  },
  {
   "property": "C209",
   "status": "partial",
   "theorems": [
    "Bilby.Props.mcmc_options",
    "Bilby.Props.mcmc_build",
    "Bilby.Props.mcmc_restart_options",
    "Bilby.Props.mcmc_npool",
    "Bilby.Props.mcmc_threads_violated",
    "Bilby.Props.mcmc_target_violated"
   ],
   "note": "Proved: values of the options, of the chains at the start and after a restart, number of processes. Refuted: threads and its like, target_nsamples."
  }
 ]
}