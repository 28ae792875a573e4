{"id": "C01", "title": "Inverse-CDF round trip of analytic priors", "statement": "For every analytic prior with a finite or half-infinite continuous support, rescale maps each probability u of the unit interval into the prior's own [minimum, maximum] and cdf(rescale(u)) = u; conversely rescale(cdf(x)) = x for x inside the support.", "quantifier": "all admissible prior parameters (bounds, slopes, widths, modes) and all u in [0,1] (open where the range is unbounded)", "why_tests_cant": "u and the parameters range over a continuum; a test samples a handful of them and misses degenerate parameters (mode at an edge, alpha=-1, spike on a bound)", "anchors": ["bilby/core/prior/analytical.py: Uniform, PowerLaw, LogUniform, SymmetricLogUniform, Cosine, Sine, Triangular, Exponential, Logistic, Cauchy, FermiDirac, Gaussian, TruncatedGaussian, HalfGaussian, LogNormal"]}
{"id": "C02", "title": "Prior densities are normalised and are the derivative of the CDF", "statement": "prob is non-negative everywhere, integrates to one over the real line, vanishes outside [minimum, maximum], and its integral up to x is exactly cdf(x).", "quantifier": "all admissible prior parameters and all real x, inside, outside and on the edges of the support", "why_tests_cant": "normalisation is an integral over the real line for every parameter choice; numerical quadrature at sampled parameters cannot settle it", "anchors": ["bilby/core/prior/analytical.py: prob/cdf of Uniform, PowerLaw, LogUniform, SymmetricLogUniform, Cosine, Sine, Triangular, Exponential, Gaussian, TruncatedGaussian, LogNormal, Logistic, Cauchy"]}
{"id": "C03", "title": "ln_prob is the logarithm of prob", "statement": "For every value, in or out of the support, ln_prob(x) equals the logarithm of prob(x), with minus infinity exactly where prob is zero.", "quantifier": "all admissible parameters and all real x including those outside the support", "why_tests_cant": "the two are coded independently with different branches; equality on all reals cannot be sampled", "anchors": ["bilby/core/prior/analytical.py: ln_prob of Uniform, PowerLaw, SymmetricLogUniform, Gaussian, LogNormal, Exponential, Logistic, Cauchy, FermiDirac, Categorical", "bilby/core/prior/base.py: Prior.ln_prob"]}
{"id": "C04", "title": "Sampling a prior draws from the advertised distribution", "statement": "If u is uniform on [0,1] then the probability that rescale(u) is at most x equals cdf(x), for every x.", "quantifier": "all admissible parameters and all real x", "why_tests_cant": "a statement about a probability measure; statistical tests only bound the discrepancy on a sample", "anchors": ["bilby/core/prior/analytical.py", "bilby/core/prior/base.py: Prior.sample"]}
{"id": "C05", "title": "CDFs are monotone and saturate at the support edges", "statement": "cdf is non-decreasing, takes values in [0,1], is 0 at and below minimum and 1 at and above maximum.", "quantifier": "all admissible parameters and all pairs of reals", "why_tests_cant": "monotonicity quantifies over all pairs of reals", "anchors": ["bilby/core/prior/analytical.py: cdf", "bilby/core/prior/slabspike.py: SlabSpikePrior.cdf", "bilby/core/prior/interpolated.py: Interped.cdf"]}
{"id": "C06", "title": "Slab-and-spike prior places exactly the advertised mass on the spike", "statement": "A uniform draw lands exactly on the spike for a set of probabilities of length spike_height (given the slab is continuous), and conditional on missing the spike is distributed as the slab; cdf agrees with rescale away from the spike.", "quantifier": "all slabs satisfying the inverse-CDF law, all spike locations in the support, all heights in [0,1]", "why_tests_cant": "continuum of slabs, locations and heights including heights 0 and 1 and spikes on the boundary", "anchors": ["bilby/core/prior/slabspike.py: SlabSpikePrior.rescale, cdf, prob"]}
{"id": "C07", "title": "Interpolated prior is a normalised piecewise-linear density whose cdf and rescale are mutually inverse", "statement": "After any sequence of changes to minimum, maximum or yy the tabulated density integrates (trapezoid rule) to one, the tabulated cdf runs monotonically from 0 to 1, and rescale inverts cdf.", "quantifier": "all positive tables, all knots, all sequences of setter calls, all u in [0,1]", "why_tests_cant": "tables and update histories are unbounded", "anchors": ["bilby/core/prior/interpolated.py: Interped"]}
{"id": "C08", "title": "Categorical prior is uniform over its categories", "statement": "rescale maps a uniform draw to each category 0..n-1 with probability 1/n, never to any other value, and prob assigns 1/n to exactly these values.", "quantifier": "all n >= 1 (as accepted) and all u in [0,1]", "why_tests_cant": "boundary draws (u=1, multiples of 1/n) and all n cannot be enumerated", "anchors": ["bilby/core/prior/analytical.py: Categorical"]}
{"id": "C09", "title": "Prior dictionary keys are partitioned", "statement": "Every key of a prior dictionary holding priors is in exactly one of non_fixed_keys, fixed_keys and constraint_keys, in dictionary order, and only non-fixed keys are sampled by samplers.", "quantifier": "all prior dictionaries", "why_tests_cant": "dictionaries are unbounded", "anchors": ["bilby/core/prior/dict.py: PriorDict.non_fixed_keys, fixed_keys, constraint_keys"]}
{"id": "C10", "title": "Constrained sampling returns exactly the requested number of samples, all satisfying every constraint", "statement": "Whenever sample / sample_subset_constrained(size=n) returns, it returns exactly n rows for every non-constraint key, each row is a row drawn from the unconstrained priors, and each row satisfies every constraint after conversion; rows of different parameters stay aligned.", "quantifier": "all streams of random draws, all constraint sets, all conversion functions, all sizes n >= 1", "why_tests_cant": "the accept/reject loop depends on an unbounded random history", "anchors": ["bilby/core/prior/dict.py: PriorDict.sample_subset_constrained, sample_subset, evaluate_constraints"]}
{"id": "C11", "title": "Joint prior probability is the product of the parts, and zero exactly where a constraint or a part is violated", "statement": "prob(sample) is the product of the per-key densities times the constraint normalisation when all constraints hold and 0 otherwise; ln_prob(sample) is its logarithm in every case.", "quantifier": "all dictionaries, samples, constraint outcomes and positive normalisation factors", "why_tests_cant": "scalar, zero and constraint branches combine; equality must hold for every sample", "anchors": ["bilby/core/prior/dict.py: PriorDict.prob, check_prob, ln_prob, check_ln_prob"]}
{"id": "C12", "title": "Constraint normalisation factor follows the current priors", "statement": "The normalisation factor used by prob reflects the priors and constraints currently in the dictionary, also after entries are replaced.", "quantifier": "all histories of assignments and prob evaluations", "why_tests_cant": "stale-cache bugs only appear for particular histories", "anchors": ["bilby/core/prior/dict.py: PriorDict.normalize_constraint_factor"]}
{"id": "C13", "title": "Conditional priors are ordered so that every prior comes after the ones it depends on", "statement": "The resolved order lists each key at most once, every conditional prior after all of its required variables, and the dictionary is reported resolvable if and only if some such complete order exists (dependencies present and acyclic).", "quantifier": "all finite dependency graphs and insertion orders, including cycles and missing variables", "why_tests_cant": "all graphs of all sizes", "anchors": ["bilby/core/prior/dict.py: ConditionalPriorDict._resolve_conditions, sorted_keys"]}
{"id": "C14", "title": "Conditional rescale assigns each unit-cube coordinate to its own parameter", "statement": "rescale(keys, theta) returns, in the order of keys, each parameter's own inverse CDF applied to that parameter's theta, conditioned on the values just rescaled for its required variables, whatever calls and edits came before.", "quantifier": "all resolvable dictionaries, key orders, theta and histories of edits and previous rescale calls", "why_tests_cant": "index caching makes the answer history dependent; tests call it with fresh objects", "anchors": ["bilby/core/prior/dict.py: ConditionalPriorDict.rescale, _update_rescale_keys"]}
{"id": "C15", "title": "Conditional joint probability depends only on the sample passed in", "statement": "prob/ln_prob of a sample that contains every required variable is a function of the sample alone, independent of previously drawn or evaluated samples.", "quantifier": "all dictionaries, samples and histories of previous calls", "why_tests_cant": "history dependence through least_recently_sampled is invisible to single-call tests", "anchors": ["bilby/core/prior/dict.py: ConditionalPriorDict.prob, ln_prob, get_required_variables, _prepare_evaluation"]}
{"id": "C16", "title": "Dirichlet samples lie on the simplex", "statement": "Rescaling any point of the unit cube with a Dirichlet prior dictionary gives non-negative components whose sum is at most one, each component within its conditional bound.", "quantifier": "all dimensions n >= 2 and all unit-cube points", "why_tests_cant": "all dimensions and a continuum of points", "anchors": ["bilby/core/prior/conditional.py: DirichletElement", "bilby/core/prior/dict.py: DirichletPriorDict"]}
{"id": "C17", "title": "Prior text representation splits and re-reads without loss", "statement": "Splitting the printed argument list of a prior recovers exactly the arguments that were printed, even when values contain nested brackets, commas and equals signs.", "quantifier": "all argument lists with balanced brackets", "why_tests_cant": "arbitrarily deep nesting", "anchors": ["bilby/core/prior/base.py: Prior.__repr__, _split_repr", "bilby/core/prior/dict.py: PriorDict.from_file, to_file"]}
{"id": "C18", "title": "Periodic and reflective boundary maps land inside the prior range", "statement": "For any proposed value, however far outside, applying a periodic (reflective) boundary yields a value in [minimum, maximum]; values already inside are unchanged by the reflective map and values strictly inside by the periodic one; the periodic map only changes the value by whole widths.", "quantifier": "all real proposals and all finite ranges", "why_tests_cant": "proposals are unbounded; edge cases at exact multiples of the width", "anchors": ["bilby/core/utils/samples.py: reflect", "bilby/bilby_mcmc/proposals.py: BaseProposal.apply_boundaries", "bilby/core/sampler/dynesty_utils.py: apply_boundaries_"]}
{"id": "C19", "title": "Jump-proposal reflection keeps parameters in range", "statement": "Every proposal returned by a jump proposal with reflecting or periodic parameters lies inside the prior range.", "quantifier": "all samples, jumps and ranges", "why_tests_cant": "exact multiples of the range are measure-zero in random tests", "anchors": ["bilby/core/sampler/proposal.py: JumpProposal._move_reflecting_keys, _move_periodic_keys"]}
{"id": "C20", "title": "MCMC chain behaves as an append-only log", "statement": "After any sequence of appends the chain contains exactly the appended samples in order; the current sample is the last appended; the maximum log likelihood equals the maximum over the history; storage growth never loses or reorders samples.", "quantifier": "all sequences of appends, all block lengths >= 1", "why_tests_cant": "block reallocation boundaries and unbounded histories", "anchors": ["bilby/bilby_mcmc/chain.py: Chain.append, _extend, __getitem__, current_sample"]}
{"id": "C21", "title": "MCMC never records a zero-prior or non-finite-likelihood state, and rejections repeat the old state", "statement": "Starting from a valid sample, every recorded sample has finite log prior and log likelihood, each step records either the proposal (accepted) or the unchanged current state, and acceptance happens exactly when log u is below the tempered Metropolis-Hastings ratio.", "quantifier": "all proposal streams, uniform draws, temperatures and numbers of steps", "why_tests_cant": "unbounded runs and adversarial proposals", "anchors": ["bilby/bilby_mcmc/sampler.py: BilbyMCMCSampler.step, accept_proposal, reject_proposal"]}
{"id": "C22", "title": "Metropolis-Hastings acceptance satisfies detailed balance for the tempered posterior", "statement": "For every pair of states, prior(x) L(x)^beta q(y|x) a(x->y) = prior(y) L(y)^beta q(x|y) a(y->x), with a the acceptance probability implied by the code and log_factor = ln q(x|y) - ln q(y|x).", "quantifier": "all positive densities, likelihoods, temperatures and proposal densities", "why_tests_cant": "an identity over all states; statistical tests are weak", "anchors": ["bilby/bilby_mcmc/sampler.py: BilbyMCMCSampler.step"]}
{"id": "C23", "title": "Parallel-tempering swap satisfies detailed balance", "statement": "The swap acceptance leaves the product of tempered posteriors invariant: the rate from (x,y) to (y,x) equals the reverse rate.", "quantifier": "all likelihood pairs and temperature pairs", "why_tests_cant": "identity over all states", "anchors": ["bilby/bilby_mcmc/sampler.py: BilbyPTMCMCSampler.swap_tempered_chains"]}
{"id": "C24", "title": "After an accepted temperature swap each chain continues from the swapped-in state", "statement": "Following an accepted swap, the next step of each chain proposes from, and on rejection records, the state received from the other chain.", "quantifier": "all chain histories and swap schedules", "why_tests_cant": "only visible through the state after a particular interleaving of swaps and steps", "anchors": ["bilby/bilby_mcmc/sampler.py: swap_tempered_chains", "bilby/bilby_mcmc/chain.py: Chain.__setitem__, current_sample"]}
{"id": "C25", "title": "The temperature ladder stays ordered under adaptation", "statement": "Adapting temperatures keeps the coldest and hottest inverse temperatures fixed and the ladder strictly decreasing.", "quantifier": "all ladders, acceptance ratios and adaptation histories", "why_tests_cant": "unbounded adaptation histories", "anchors": ["bilby/bilby_mcmc/sampler.py: adapt_temperatures"]}
{"id": "C26", "title": "Proposal cycle visits proposals round-robin", "statement": "Successive calls return the proposals of the weighted list in cyclic order: over any window of n calls each of the n entries is used exactly once.", "quantifier": "all cycle lengths and call counts", "why_tests_cant": "unbounded call histories", "anchors": ["bilby/bilby_mcmc/proposals.py: ProposalCycle"]}
{"id": "C27", "title": "Uniform proposal draws new values for finite-width parameters", "statement": "A uniform proposal replaces parameters of finite width by a draw uniform in the prior range and leaves infinite-width parameters unchanged.", "quantifier": "all samples, prior ranges and uniform draws", "why_tests_cant": "the guard is an identity comparison whose outcome is the same for all inputs; a statistical test with other proposals masks it", "anchors": ["bilby/bilby_mcmc/proposals.py: UniformProposal"]}
{"id": "C28", "title": "Stretch moves have scale factors in [1/a, a] and the right Jacobian", "statement": "The stretch factor drawn for scale a lies in [1/a, a], its law has density proportional to 1/sqrt(z), and the log factor returned is (ndim-1) ln z, so the move satisfies detailed balance.", "quantifier": "all scales a > 1 and uniform draws", "why_tests_cant": "law of a random variable", "anchors": ["bilby/bilby_mcmc/proposals.py: _stretch_move, StretchProposal", "bilby/core/sampler/proposal.py: EnsembleStretch"]}
{"id": "C29", "title": "Nested-sampling walk returns a point above the likelihood threshold whenever a move was accepted", "statement": "Whenever the walk reports at least one accepted move the returned live point has log likelihood above the threshold and lies in the unit cube; the returned (u, v, logl) triple is consistent: v = prior_transform(u), logl = loglikelihood(v).", "quantifier": "all likelihoods, thresholds, proposal streams and walk lengths", "why_tests_cant": "unbounded random walks", "anchors": ["bilby/core/sampler/dynesty_utils.py: FixedRWalk, ACTTrackingRWalk, AcceptanceTrackingRWalk"]}
{"id": "C30", "title": "Interrupting a checkpoint write never destroys the previous checkpoint", "statement": "At every crash point during safe_file_dump the destination file holds either the complete previous contents or the complete new contents, never a partial file; after completion it holds the new contents.", "quantifier": "all crash points, previous contents and write granularities, and all sequences of dumps", "why_tests_cant": "crash points cannot be enumerated by a unit test", "anchors": ["bilby/core/utils/io.py: safe_file_dump"]}
{"id": "C31", "title": "Saving a result without overwriting never destroys the old file", "statement": "When saving over an existing file with overwrite disabled, the previous contents survive under the .old name.", "quantifier": "all file systems states and sequences of saves", "why_tests_cant": "file-system histories", "anchors": ["bilby/core/utils/io.py: move_old_file", "bilby/core/result.py: Result.save_to_file"]}
{"id": "C32", "title": "JSON encoding and decoding of results round-trips", "statement": "Decoding the encoding of any supported value (nested dicts, lists, arrays, complex numbers, priors, functions by name, infinities) gives back an equal value.", "quantifier": "all nested values of supported types", "why_tests_cant": "unbounded nesting; tagged dictionaries may collide with user dictionaries", "anchors": ["bilby/core/utils/io.py: BilbyJsonEncoder, decode_bilby_json, recursively_decode_bilby_json"]}
{"id": "C33", "title": "HDF5 encoding and decoding of results round-trips", "statement": "Decoding the HDF5 encoding of any supported item (None, bool, numbers, strings, lists, dicts, frames) returns an equal item.", "quantifier": "all nested values of supported types", "why_tests_cant": "unbounded nesting", "anchors": ["bilby/core/utils/io.py: encode_for_hdf5, decode_from_hdf5, recursively_save_dict_contents_to_group, recursively_load_dict_contents_from_group"]}
{"id": "C34", "title": "Result file naming is consistent between save and load", "statement": "read_in_result(outdir, label) looks for the file that save_to_file(outdir, label) wrote, for each supported extension; unsupported extensions are rejected.", "quantifier": "all labels, extensions and gzip flags", "why_tests_cant": "all strings", "anchors": ["bilby/core/result.py: result_file_name, _determine_file_name, read_in_result"]}
{"id": "C35", "title": "Rejection sampling keeps a subset of the input in order", "statement": "rejection_sample(posterior, weights) returns a sub-sequence of the rows, a row being kept exactly when its weight exceeds max-weight times its uniform draw; the maximum-weight row is always kept for draws below one and zero-weight rows never.", "quantifier": "all posteriors, weights and uniform draws", "why_tests_cant": "random draws", "anchors": ["bilby/core/result.py: rejection_sample"]}
{"id": "C36", "title": "Reweighting an interrupted evaluation resumes without changing the result", "statement": "Computing reweighting weights with a resume file gives the same log-likelihood and log-prior arrays whatever points the computation was interrupted and resumed at.", "quantifier": "all interruption points and posterior sizes", "why_tests_cant": "all crash points", "anchors": ["bilby/core/result.py: get_weights_for_reweighting"]}
{"id": "C37", "title": "Reweighted evidence is the mean of the weights", "statement": "reweight(result) multiplies the evidence by the arithmetic mean of new/old likelihood-times-prior weights; with unchanged likelihood and priors the evidence is unchanged.", "quantifier": "all posteriors and weight vectors", "why_tests_cant": "all vectors", "anchors": ["bilby/core/result.py: reweight"]}
{"id": "C38", "title": "Combining results weights runs by evidence and averages evidences", "statement": "Combining nested-sampling results gives evidence equal to the arithmetic mean of the evidences, keeps each posterior row of run i with probability proportional to its evidence, and refuses inconsistent runs; combining MCMC results concatenates all samples.", "quantifier": "all lists of results with consistent priors/parameters", "why_tests_cant": "all list lengths and evidences", "anchors": ["bilby/core/result.py: ResultList.combine, _combine_nested_sampled_runs, _combine_mcmc_sampled_runs, check_consistent_*"]}
{"id": "C39", "title": "Injection credible levels are monotone fractions", "statement": "The credible level of an injected value is the weighted fraction of posterior samples strictly below it: it lies in [0,1], is monotone in the injected value, is 0 below and 1 above all samples.", "quantifier": "all posteriors, weights and injected values", "why_tests_cant": "all vectors", "anchors": ["bilby/core/result.py: get_injection_credible_level"]}
{"id": "C40", "title": "Joint likelihood is the sum of its parts on shared parameters", "statement": "The joint log likelihood equals the sum of the component log likelihoods evaluated at the joint parameters, also after parameters are changed through the joint object.", "quantifier": "all component lists and parameter update histories", "why_tests_cant": "aliasing of parameter dictionaries is history dependent", "anchors": ["bilby/core/likelihood.py: JointLikelihood"]}
{"id": "C41", "title": "Analytic likelihoods are normalised densities of the data", "statement": "exp(log_likelihood) of the Gaussian, exponential and Poisson likelihoods is, as a function of the data, a product of normalised densities and is minus infinity for impossible data.", "quantifier": "all data vectors, model predictions and noise levels", "why_tests_cant": "all vectors and parameters", "anchors": ["bilby/core/likelihood.py: GaussianLikelihood, PoissonLikelihood, ExponentialLikelihood, Multinomial"]}
{"id": "C42", "title": "Log-trapezoid integration computes the trapezoid rule without overflow", "statement": "logtrapzexp(lnf, dx) equals the logarithm of the trapezoid-rule integral of exp(lnf) for constant and for variable spacing, and for one-sample-constant functions is exact.", "quantifier": "all finite sequences of log values and positive spacings", "why_tests_cant": "all sequences", "anchors": ["bilby/core/utils/calculus.py: logtrapzexp"]}
{"id": "C43", "title": "Kish effective sample size lies between 1 and n", "statement": "The effective sample size computed from log weights is at least 1, at most the number of samples, equals n exactly for equal weights, and does not change when all weights are rescaled.", "quantifier": "all finite non-empty weight vectors", "why_tests_cant": "all vectors", "anchors": ["bilby/core/utils/samples.py: kish_log_effective_sample_size"]}
{"id": "C44", "title": "Time and frequency series agree with sampling frequency and duration", "statement": "create_time_series and create_frequency_series produce evenly spaced samples of the advertised count, spacing and end points; recovering sampling frequency and duration from the arrays returns the inputs; incompatible inputs are rejected.", "quantifier": "all compatible sampling frequencies, durations and start times", "why_tests_cant": "all real inputs", "anchors": ["bilby/core/utils/series.py: create_time_series, create_frequency_series, get_sampling_frequency_and_duration_from_*"]}
{"id": "C45", "title": "Coupled time and frequency arrays stay mutually consistent", "statement": "After any sequence of assignments to duration, sampling frequency, start time, time array or frequency array, the reported time and frequency arrays describe the same duration and sampling frequency.", "quantifier": "all histories of setter and getter calls", "why_tests_cant": "stale caches need specific histories", "anchors": ["bilby/core/series.py: CoupledTimeAndFrequencySeries"]}
{"id": "C46", "title": "Maximum-likelihood search returns the best optimum found", "statement": "get_maximum_likelihood_sample returns the start/optimum with the highest log likelihood among those tried.", "quantifier": "all sequences of optimiser outcomes", "why_tests_cant": "needs specific orders of outcomes", "anchors": ["bilby/core/fisher.py: FisherMatrixPosteriorEstimator.get_maximum_likelihood_sample"]}
{"id": "C47", "title": "Finite-difference Fisher matrix is symmetric and exact for quadratic log likelihoods", "statement": "The matrix computed by finite differences is symmetric, and equals minus the Hessian for every quadratic log likelihood.", "quantifier": "all quadratic forms, dimensions, step sizes and points", "why_tests_cant": "all functions and points", "anchors": ["bilby/core/fisher.py: calculate_FIM, get_finite_difference_xx, get_finite_difference_xy"]}
{"id": "C48", "title": "Grid marginalisation is order independent and consistent with the evidence", "statement": "Marginalising a grid over several parameters gives the same result in any order, and marginalising over all parameters gives the log evidence.", "quantifier": "all grids and orders", "why_tests_cant": "all shapes", "anchors": ["bilby/core/grid.py: Grid.marginalize, _marginalize_single"]}
{"id": "C49", "title": "Mass-parameter conversions are mutually inverse and ordered", "statement": "Conversions between component masses, total mass, chirp mass, mass ratio and symmetric mass ratio invert each other, and return mass_1 >= mass_2 > 0 for mass ratios in (0,1].", "quantifier": "all positive masses and mass ratios in (0,1]", "why_tests_cant": "real-number identities over a continuum, including a cubic root formula", "anchors": ["bilby/gw/conversion.py: *_to_component_masses, symmetric_mass_ratio_to_mass_ratio, chirp_mass_and_primary_mass_to_mass_ratio, component_masses_to_*"]}
{"id": "C50", "title": "Tidal-parameter conversions are mutually inverse", "statement": "Converting (lambda_1, lambda_2) to (lambda_tilde, delta_lambda_tilde) or to (symmetric, antisymmetric) and back is the identity; all denominators are non-zero for physical masses.", "quantifier": "all tidal deformabilities and positive masses", "why_tests_cant": "real-number identities; zeros of a degree-5 polynomial denominator", "anchors": ["bilby/gw/conversion.py: lambda_1_lambda_2_to_lambda_tilde, lambda_tilde_delta_lambda_tilde_to_lambda_1_lambda_2, lambda_tilde_to_lambda_1_lambda_2, lambda_symmetric_lambda_antisymmetric_*"]}
{"id": "C51", "title": "Derived-parameter generation never overwrites supplied masses and only fails when asked to", "statement": "generate_component_masses with require_add=False returns its input unchanged when component masses cannot be derived and adds component masses when they can; supplied keys keep their values.", "quantifier": "all dictionaries of supplied mass parameters", "why_tests_cant": "2^k combinations of present keys", "anchors": ["bilby/gw/conversion.py: generate_component_masses, generate_mass_parameters"]}
{"id": "C52", "title": "Source-frame inputs are converted to detector-frame masses for any supplied distance measure", "statement": "Supplying source-frame masses with any one of redshift, comoving distance or luminosity distance yields detector-frame masses multiplied by (1+z).", "quantifier": "all dictionaries of supplied parameters", "why_tests_cant": "combinations of keys", "anchors": ["bilby/gw/conversion.py: convert_to_lal_binary_black_hole_parameters"]}
{"id": "C53", "title": "Noise-weighted inner product is a positive Hermitian form", "statement": "The inner product is conjugate symmetric, sesquilinear, positive definite on non-zero in-band signals, satisfies Cauchy-Schwarz; hence overlaps lie in [-1,1], the optimal SNR is homogeneous and the matched-filter SNR is bounded by the data norm.", "quantifier": "all complex series, positive PSDs and durations", "why_tests_cant": "all vectors", "anchors": ["bilby/gw/utils.py: noise_weighted_inner_product, optimal_snr_squared, matched_filter_snr, overlap"]}
{"id": "C54", "title": "Waveform requests reflect the current generator settings", "statement": "A strain request returns the model evaluated at the requested parameters on the generator's current time/frequency arrays, whatever requests and setting changes came before.", "quantifier": "all histories of requests and setting changes", "why_tests_cant": "cache staleness needs specific histories", "anchors": ["bilby/gw/waveform_generator.py: WaveformGenerator._calculate_strain"]}
{"id": "C55", "title": "A supplied distance-marginalisation lookup table is only used if it matches the likelihood", "statement": "A cached lookup table whose settings differ from the likelihood's is rebuilt rather than silently used.", "quantifier": "all lookup tables and settings", "why_tests_cant": "combinations of settings and supply routes", "anchors": ["bilby/gw/likelihood/base.py: _setup_distance_marginalization, load_lookup_table, _test_cached_lookup_table"]}
{"id": "C56", "title": "Likelihood evaluation leaves the caller's parameters unchanged", "statement": "Evaluating the log likelihood ratio with time jitter returns with geocent_time restored, whether or not the waveform could be generated.", "quantifier": "all parameters and waveform outcomes, any number of evaluations", "why_tests_cant": "failure paths and histories", "anchors": ["bilby/gw/likelihood/base.py: GravitationalWaveTransient.log_likelihood_ratio"]}
{"id": "C57", "title": "Frequency mask and band limits follow the data", "statement": "The mask selects exactly the frequencies of the current frequency array inside [minimum_frequency, maximum_frequency] (and at most the Nyquist frequency) and outside every notch, after any history of changes to the data and limits; a maximum frequency that was set is not lost.", "quantifier": "all histories of setter calls", "why_tests_cant": "stale caches", "anchors": ["bilby/gw/detector/strain_data.py: InterferometerStrainData.frequency_mask, maximum_frequency, Notch"]}
{"id": "C58", "title": "Detector geometry caches are always fresh", "statement": "After any sequence of changes to latitude, longitude, elevation, arm azimuths and tilts, the reported vertex, arm vectors and detector tensor equal those computed from the current settings. The vertex is the point at the given elevation above the reference ellipsoid.", "quantifier": "all histories of setter and getter calls", "why_tests_cant": "stale caches", "anchors": ["bilby/gw/detector/geometry.py: InterferometerGeometry"]}
{"id": "C59", "title": "PSD estimation excludes the analysis segment", "statement": "When the analysis segment lies inside the data used for PSD estimation, it is removed before the PSD is computed.", "quantifier": "all segment placements", "why_tests_cant": "a chained comparison that only misbehaves for typical GPS times", "anchors": ["bilby/gw/detector/strain_data.py: create_power_spectral_density"]}
{"id": "C60", "title": "Hyper-model cache never mixes data sets", "statement": "The hyper-prior probability of a data set is computed from that data set, whatever was evaluated before; each posterior's sampling-prior weights are those of its own samples.", "quantifier": "all sequences of evaluations", "why_tests_cant": "cache keyed on parameters only", "anchors": ["bilby/hyper/model.py: Model.prob", "bilby/hyper/likelihood.py: HyperparameterLikelihood.resample_posteriors"]}
{"id": "C61", "title": "run_sampler evidence bookkeeping is consistent", "statement": "Every result returned has log_bayes_factor = log_evidence - log_noise_evidence, whether or not the sampler worked with the likelihood ratio; sampling time is in seconds; injection parameters are converted exactly once.", "quantifier": "all samplers, settings, conversion functions", "why_tests_cant": "combinations of flags; unit errors are invisible to type checks", "anchors": ["bilby/core/sampler/__init__.py: run_sampler"]}
{"id": "C62", "title": "Call counter is exact under concurrency", "statement": "However increments from several processes interleave, the final count equals the initial count plus the total number of increments.", "quantifier": "all numbers of processes, increments and interleavings", "why_tests_cant": "interleavings", "anchors": ["bilby/core/utils/counter.py"]}
{"id": "C63", "title": "Sampler keyword arguments are canonicalised and validated", "statement": "After translation every known alias is mapped to the sampler's own key, the sampler's key wins or loses as documented, unknown keys never reach the sampler and every default key is present.", "quantifier": "all keyword dictionaries", "why_tests_cant": "all dictionaries", "anchors": ["bilby/core/sampler/base_sampler.py: Sampler.kwargs, _translate_kwargs, _verify_kwargs_against_default_kwargs"]}
{"id": "C64", "title": "Nested-sampling log likelihoods are realigned with the posterior samples", "statement": "reorder_loglikelihoods returns, for each posterior sample that occurs among the raw samples, the log likelihood of that sample.", "quantifier": "all sample lists without duplicates, and all resamplings of them", "why_tests_cant": "all permutations", "anchors": ["bilby/core/sampler/base_sampler.py: NestedSampler.reorder_loglikelihoods"]}
{"id": "C65", "title": "Spin conversion produces physical spins and restores itself", "statement": "Generated component spins have |cos tilt| consistent with tilt, in-plane magnitude squared plus z-component squared equals a^2, chi_eff lies in [-1,1] and chi_p in [0,1] for physical inputs.", "quantifier": "all spin magnitudes in [0,1], tilts, masses", "why_tests_cant": "continuum", "anchors": ["bilby/gw/conversion.py: generate_component_spins, generate_spin_parameters"]}
{"id": "C66", "title": "Time-domain and frequency-domain strain describe the same data", "statement": "After any sequence of set_from_* calls, the time-domain and frequency-domain strain returned derive from the most recently supplied data.", "quantifier": "all histories of set_from_* and getter calls", "why_tests_cant": "stale caches", "anchors": ["bilby/gw/detector/strain_data.py: set_from_*, time_domain_strain, frequency_domain_strain"]}
{"id": "C67", "title": "Sky-frame conversions are mutually inverse and keep directions", "statement": "Converting ra/dec to theta/phi and back is the identity in both orders and names the same direction in the frame turning with the Earth; converting detector-frame zenith/azimuth gives a right ascension in [0, 2 pi), the direction of the Earth-frame angles (recovered up to whole turns), and preserves angles between directions if the imported rotation does.", "quantifier": "all angles and times", "why_tests_cant": "continuum", "anchors": ["bilby/core/utils/conversion.py: ra_dec_to_theta_phi, theta_phi_to_ra_dec", "bilby/gw/utils.py: zenith_azimuth_to_ra_dec"]}
{"id": "C68", "title": "Attributes assigned after construction keep a prior self-consistent", "statement": "After assigning spike_height or spike_location of an existing slab-and-spike prior, rescale, cdf and the mass on the spike describe the same distribution as a prior constructed with those values.", "quantifier": "all slabs, all initial and new heights and locations", "why_tests_cant": "Ranges over every sequence of assignments and every probability; a sampled check sees finitely many.", "anchors": ["bilby/core/prior/slabspike.py: SlabSpikePrior.spike_height, spike_location, inverse_cdf_below_spike, rescale, cdf"]}
{"id": "C69", "title": "The adaptive number of walks stays usable and approaches its target", "statement": "With at least ten live points, whatever acceptances the walks report, the number of walks used by the dynesty proposals stays between 1 and maxmcmc, and under a constant acceptance fraction it converges to the length at which the requested number of moves is accepted.", "quantifier": "all histories of reported acceptances, all targets, limits and numbers of live points", "why_tests_cant": "Ranges over unbounded adaptation histories.", "anchors": ["bilby/core/sampler/dynesty_utils.py: LivePointSampler.update_user, MultiEllipsoidLivePointSampler.update_user"]}
{"id": "C70", "title": "Differential evolution never differences the current live point", "statement": "The live points offered to the differential evolution proposal are distinct live points other than the point being evolved.", "quantifier": "all sets of live points and all choices of the current point", "why_tests_cant": "Ranges over every live set; random draws hide the offending case.", "anchors": ["bilby/core/sampler/dynesty_utils.py: _get_proposal_kwargs, AcceptanceTrackingRWalk, propose_differential_evolution"]}
{"id": "C71", "title": "A signal during a checkpoint write leaves a complete checkpoint", "statement": "When the run is interrupted by SIGTERM, SIGINT or SIGALRM at any point, including while a checkpoint is being written, the handler's own checkpoint ends as a complete file under the resume name.", "quantifier": "all points of the write at which the signal may arrive, all contents and previous files", "why_tests_cant": "the signal can arrive between any two operations of the interrupted write; both writes use the same temporary file", "anchors": ["bilby/core/sampler/base_sampler.py: signal_wrapper, write_current_state_and_exit", "bilby/core/utils/io.py: safe_file_dump"]}
{"id": "C72", "title": "Saving a result does not change it", "statement": "save_to_file leaves the attributes of the result object, in particular sampler_kwargs, as they were.", "quantifier": "all keyword dictionaries, with any mixture of callables and data", "why_tests_cant": "arbitrary dictionaries; several callables interact", "anchors": ["bilby/core/result.py: Result.save_to_file, Result._get_save_data_dictionary"]}
{"id": "C73", "title": "Reweighting does not change its input", "statement": "reweight returns a new result and leaves the posterior, priors and meta data of the result passed in as they were.", "quantifier": "every result, every combination of old and new likelihoods and priors, every outcome of the rejection step", "why_tests_cant": "the object graph is shared with the returned copy; a test compares a few fields for one input, the claim is about everything reachable from any input", "anchors": ["bilby/core/result.py: reweight"]}
{"id": "C74", "title": "Derived results keep a consistent Bayes factor", "statement": "A result produced by reweighting or combining has log_bayes_factor = log_evidence - log_noise_evidence if its inputs have.", "quantifier": "every result or list of results and all evidences", "why_tests_cant": "it must hold for all evidences and weights, not for sampled ones", "anchors": ["bilby/core/result.py: reweight, ResultList._combine_nested_sampled_runs, _combine_mcmc_sampled_runs"]}
{"id": "C75", "title": "Fisher covariance is positive definite", "statement": "The covariance from which Fisher-matrix posterior samples are drawn is positive semidefinite, also when the inverse Fisher matrix is not.", "quantifier": "all symmetric inverse Fisher matrices", "why_tests_cant": "all matrices of all dimensions", "anchors": ["bilby/core/fisher.py: calculate_iFIM"]}
{"id": "C76", "title": "Fisher posterior samples are labelled by the right parameter", "statement": "Column k of the Fisher posterior samples is centred on the value of parameter k of the point the estimator is given.", "quantifier": "all points, all orders in which their parameters are listed", "why_tests_cant": "depends on the order of dictionary keys", "anchors": ["bilby/core/fisher.py: sample_array, sample_dataframe"]}
{"id": "C77", "title": "Hyper-parameter likelihood is the ratio of population to sampling prior, averaged over samples", "statement": "The log likelihood of the hyper-parameter likelihood is, for each event, the log of the mean over its samples of population prior over sampling prior, summed over events and shifted by the sum of the log evidences; log_likelihood_ratio is the same without the evidences; the number of samples used per event is the same for all.", "quantifier": "all numbers of events and samples, all positive sampling priors", "why_tests_cant": "a statement about all sample sets and evidences", "anchors": ["bilby/hyper/likelihood.py: HyperparameterLikelihood"]}
{"id": "C78", "title": "The gravitational-wave likelihood is that of Gaussian noise", "statement": "Without marginalisation log_likelihood_ratio is half the decrease of the noise-weighted squared residual when the signal is subtracted from the data, log_likelihood is minus half the residual, and noise_log_likelihood stays correct when the data are replaced.", "quantifier": "all detectors, data, signals and power spectral densities (infinite ones included)", "why_tests_cant": "an identity over all data and signals; the cache needs two data sets in one run", "anchors": ["bilby/gw/likelihood/base.py: log_likelihood_ratio, noise_log_likelihood; bilby/gw/detector/interferometer.py: inner_product, optimal_snr_squared"]}
{"id": "C79", "title": "The detector response is linear in the polarisations and a delay is a phase", "statement": "get_detector_response is linear in the polarisations; a shift of the geocentric time multiplies each frequency by the matching phase and leaves the optimal signal-to-noise ratio alone.", "quantifier": "all modes, antenna responses, times and frequencies", "why_tests_cant": "an identity over all signals and times", "anchors": ["bilby/gw/detector/interferometer.py: get_detector_response"]}
{"id": "C80", "title": "Phase marginalisation", "statement": "The phase-marginalised likelihood ratio is the mean over the reference phase of the likelihood ratio of the signal rotated by the phase, lies between its smallest and largest values, and the reconstruction draws phases with the likelihood of the rotated signal.", "quantifier": "all inner products and optimal signal-to-noise ratios", "why_tests_cant": "an integral identity for all arguments", "anchors": ["bilby/gw/likelihood/base.py: phase_marginalized_likelihood, generate_phase_sample_from_marginalized_likelihood; bilby/gw/utils.py: ln_i0"]}
{"id": "C81", "title": "Distance marginalisation", "statement": "An entry of the distance-marginalisation table is the log of the prior-weighted sum over the distance grid of the likelihood ratio of the signal rescaled to that distance, it does not depend on the distance the waveform was made with, and the reconstruction weighs distances with the same likelihood.", "quantifier": "all distance grids and prior arrays, all signals and reference distances", "why_tests_cant": "an identity over all grids and signals", "anchors": ["bilby/gw/likelihood/base.py: _create_lookup_table, distance_marginalized_likelihood, _setup_rho, generate_distance_sample_from_marginalized_likelihood"]}
{"id": "C82", "title": "Time marginalisation", "statement": "The time-marginalised likelihood ratio is the sum over the time grid of prior times step times the likelihood ratio of the signal at that time, and the reconstruction weighs each time with the likelihood of the signal at that time.", "quantifier": "all data of regular detectors, signals, priors, numbers of steps and durations", "why_tests_cant": "off-by-one of the grid and normalisation errors are hidden for priors wider than a few steps and for one duration", "anchors": ["bilby/gw/likelihood/base.py: time_marginalized_likelihood, _setup_time_marginalization, generate_time_sample_from_marginalized_likelihood"]}
{"id": "C83", "title": "Calibration marginalisation", "statement": "The calibration-marginalised likelihood ratio is the mean over the response curves of the likelihood ratio with that curve applied, and the reconstruction of the calibration and of the other parameters uses the likelihood at the same parameters and with the drawn curve.", "quantifier": "all numbers of response curves, curves, data and signals; with and without time marginalisation", "why_tests_cant": "an identity over all curves; the reconstruction is random", "anchors": ["bilby/gw/likelihood/base.py: calculate_snrs, calibration_marginalized_likelihood, get_calibration_log_likelihoods, generate_time_sample_from_marginalized_likelihood"]}
{"id": "C84", "title": "The number of processes and the resume flag reach the sampler", "statement": "The sampler works with the number of processes given as npool to run_sampler, and resume=True continues an interrupted run.", "quantifier": "all samplers, keyword dictionaries and numbers of processes", "why_tests_cant": "the flow of one argument through constructor, translation and defaults differs for every sampler", "anchors": ["bilby/core/sampler/base_sampler.py: Sampler.__init__, Sampler.npool", "bilby/core/sampler/cpnest.py: _translate_kwargs", "bilby/core/sampler/dynesty.py: __init__", "bilby/core/sampler/ultranest.py: _translate_kwargs"]}
{"id": "C85", "title": "Marginalised parameters are not sampled", "statement": "run_sampler either raises or samples in none of the parameters over which the likelihood is marginalised.", "quantifier": "all sets of marginalised parameters, priors given and default priors", "why_tests_cant": "the check and the filling of default priors are separate steps; all priors", "anchors": ["bilby/core/sampler/__init__.py: run_sampler, _check_marginalized_parameters_not_sampled", "bilby/core/prior/dict.py: fill_priors"]}
{"id": "C86", "title": "Parameters of a joint prior act together", "statement": "For parameters that share one joint distribution, ln_prob of a dictionary adds the logarithm of the joint density at the whole point once, rescale gives each parameter its own coordinate of the transformed point, and sample draws the parameters together.", "quantifier": "all joint distributions, all orders of the parameters in the dictionary, all histories of earlier calls", "why_tests_cant": "the shared object keeps state between calls, so histories and orders are unbounded", "anchors": ["bilby/core/prior/joint.py: BaseJointPriorDist, JointPrior", "bilby/core/prior/dict.py: PriorDict.ln_prob, rescale, sample_subset"]}
{"id": "C87", "title": "Multivariate Gaussian prior: draws, density and parameters agree", "statement": "A multivariate Gaussian prior with given means and covariance matrix, or standard deviations and correlation matrix, draws from the normal distribution of these parameters and its prob is the density; several modes are mixed with their weights.", "quantifier": "all dimensions, means, covariance matrices, modes and weights", "why_tests_cant": "equality of probability laws on R^n for all matrices", "anchors": ["bilby/core/prior/joint.py: MultivariateGaussianDist.add_mode, _rescale, _sample, _ln_prob"]}
{"id": "C88", "title": "Joint priors are zero outside their bounds", "statement": "ln_prob of a joint distribution is -inf for every sample that is outside the bounds of some parameter, and that of the distribution for the others.", "quantifier": "all bounds and all lists of samples", "why_tests_cant": "depends on which of arbitrarily many samples violates which bound", "anchors": ["bilby/core/prior/joint.py: BaseJointPriorDist._check_samp, ln_prob"]}
{"id": "C89", "title": "Uniform component masses through chirp mass and mass ratio", "statement": "UniformInComponentsChirpMass and UniformInComponentsMassRatio have prob, cdf, ln_prob and rescale of one distribution each, and chirp masses and mass ratios drawn from the two give component masses distributed uniformly over the region of the mass plane with these chirp masses and mass ratios.", "quantifier": "all limits and all points of the prior volume", "why_tests_cant": "a statement about a probability law in the plane and an inverse cdf with a hypergeometric function", "anchors": ["bilby/gw/prior.py: UniformInComponentsChirpMass, UniformInComponentsMassRatio"]}
{"id": "C90", "title": "Conversion to flat component-mass priors reweights correctly", "statement": "Samples taken with some priors on chirp mass and mass ratio, reweighted with the weights of convert_to_flat_in_component_mass_prior, represent the posterior under a prior flat in the component masses, and the result given is left as it was.", "quantifier": "all mass priors, all likelihoods", "why_tests_cant": "an identity between measures, for arbitrary likelihoods", "anchors": ["bilby/gw/prior.py: convert_to_flat_in_component_mass_prior"]}
{"id": "C91", "title": "Aligned and in-plane spin priors factor the isotropic spin distribution", "statement": "Drawing the aligned component and then, conditionally, the magnitude (ConditionalChiUniformSpinMagnitude) or the in-plane component (ConditionalChiInPlane) gives the same joint distribution as a uniform magnitude with isotropic direction; prob, cdf and rescale of the conditional priors agree.", "quantifier": "all maximum magnitudes, all aligned components, all points", "why_tests_cant": "an equality of joint probability laws", "anchors": ["bilby/gw/prior.py: ConditionalChiUniformSpinMagnitude, ConditionalChiInPlane"]}
{"id": "C92", "title": "The aligned-spin prior is the law of magnitude times cosine", "statement": "AlignedSpin covers exactly the products of a magnitude and a cosine of the given priors and gives them the probability of the product.", "quantifier": "all magnitude and cosine priors", "why_tests_cant": "the density is a numerical table; its error is not visible at sampled points", "anchors": ["bilby/gw/prior.py: AlignedSpin"]}
{"id": "C93", "title": "Mass limits of a prior dictionary are true limits", "statement": "Every binary within the limits of a prior dictionary has a chirp mass between minimum_chirp_mass and maximum_chirp_mass and component masses of at least minimum_component_mass.", "quantifier": "all limits, all binaries", "why_tests_cant": "the limits are extrema over a continuum", "anchors": ["bilby/gw/prior.py: CBCPriorDict.minimum_chirp_mass, maximum_chirp_mass, minimum_component_mass"]}
{"id": "C94", "title": "Redundant sampling parameters are found", "statement": "test_has_redundant_keys reports a dictionary exactly if some parameter with a prior is determined by the others, and test_redundancy says so of a key exactly if the present ones determine it.", "quantifier": "all combinations of sampled, fixed and constrained parameters, all binaries", "why_tests_cant": "being determined is a statement about all pairs of binaries", "anchors": ["bilby/gw/prior.py: BBHPriorDict.test_redundancy, BNSPriorDict.test_redundancy", "bilby/core/prior/dict.py: PriorDict.test_has_redundant_keys"]}
{"id": "C95", "title": "Limits of cosmological priors agree in all three parametrisations", "statement": "The limits of a UniformComovingVolume or UniformSourceFrame prior are the requested ones, describe the same redshifts as redshift, luminosity distance and comoving distance, and stay inside the tabulated range, also after changing them.", "quantifier": "all cosmologies with increasing distances, all limits and units, all sequences of changes", "why_tests_cant": "sequences of limit changes and cosmologies are unbounded", "anchors": ["bilby/gw/prior.py: Cosmological.__init__, minimum, maximum, _set_limit"]}
{"id": "C96", "title": "Corresponding priors cover the same redshifts", "statement": "get_corresponding_prior gives a prior for another distance parameter, in the unit asked for, over the same range of redshifts.", "quantifier": "all cosmologies, priors, names and units", "why_tests_cant": "continuum of limits and cosmologies", "anchors": ["bilby/gw/prior.py: Cosmological.get_corresponding_prior"]}
{"id": "C97", "title": "Cosmological priors have the stated density", "statement": "The redshift prior has density proportional to dV/dz (divided by 1+z for UniformSourceFrame) up to the interpolation error of the table, and the distance priors have that density divided by the derivative of the distance.", "quantifier": "all cosmologies with Lipschitz volume element, all ranges and redshifts", "why_tests_cant": "the error bound holds at every redshift between table points", "anchors": ["bilby/gw/prior.py: UniformComovingVolume, UniformSourceFrame, Cosmological._get_luminosity_distance_arrays"]}
{"id": "C98", "title": "set_cosmology sets the cosmology used", "statement": "After set_cosmology(c), priors and conversions without explicit cosmology use c; an explicit one takes precedence.", "quantifier": "all sequences of calls", "why_tests_cant": "global state, all call sequences", "anchors": ["bilby/gw/cosmology.py: get_cosmology, set_cosmology"]}
{"id": "C99", "title": "The sky-map prior is a normalised density", "statement": "ln_prob of the sky-map prior is, for each sample, the logarithm of a normalised density in right ascension and declination following the map.", "quantifier": "all maps, resolutions and lists of samples", "why_tests_cant": "normalisation is an integral over the sky", "anchors": ["bilby/gw/prior.py: HealPixMapPriorDist._ln_prob, _check_norm"]}
{"id": "C100", "title": "Draws from the sky-map prior follow the map", "statement": "Sampling and rescaling choose pixels with their probabilities and directions inside the pixel, and return right ascension, declination and distance of every sample.", "quantifier": "all maps, resolutions, bounds and unit-cube points", "why_tests_cant": "statement about distributions and all shapes of input", "anchors": ["bilby/gw/prior.py: HealPixMapPriorDist._rescale, _sample, draw_from_pixel, draw_distance, update_distance"]}
{"id": "C101", "title": "Relative binning is exact where its approximation is", "statement": "If the ratio of the signal to the fiducial waveform is affine in frequency in every bin, the relative-binning inner products equal the exact ones (the squared norm up to second order in the slope).", "quantifier": "all data, spectra, fiducial waveforms, bins and such signals", "why_tests_cant": "tests compare a few likelihood values with a tolerance", "anchors": ["bilby/gw/likelihood/relative.py: compute_summary_data, compute_waveform_ratio_per_interferometer, calculate_snrs"]}
{"id": "C102", "title": "Relative-binning bins cover the band", "statement": "setup_bins gives increasing edges from the first to the last frequency of the band with a phase change of at most epsilon in each bin.", "quantifier": "all frequency arrays, bands, chi and epsilon", "why_tests_cant": "all bands and parameters", "anchors": ["bilby/gw/likelihood/relative.py: setup_bins"]}
{"id": "C103", "title": "The full relative-binning waveform", "statement": "The waveform used for time marginalisation equals the signal at all bin edges, is the fiducial waveform times the linear interpolation of the ratio between them, and zero outside.", "quantifier": "all signals, bins and frequencies", "why_tests_cant": "all frequencies and bin layouts", "anchors": ["bilby/gw/likelihood/relative.py: _compute_full_waveform"]}
{"id": "C104", "title": "Relative binning works for every network", "statement": "The summary data can be computed for every network of detectors with their own frequency bands, and the likelihood at the fiducial parameters is the exact one.", "quantifier": "all bands, data and spectra", "why_tests_cant": "all combinations of bands", "anchors": ["bilby/gw/likelihood/relative.py: setup_bins, compute_summary_data"]}
{"id": "C105", "title": "Starting frequencies of the multi-banding bands", "statement": "The setup of the frequency bands always ends without an error, with increasing starting frequencies between the minimum frequency and the smaller one of the maximum frequencies, with durations that halve and stay above the time offset and the minimum banding duration; each starting frequency is within the tolerance of one from which on both conditions of the paper hold.", "quantifier": "all chirp masses, modes, accuracy factors, time offsets, durations and frequencies", "why_tests_cant": "the bisection ends after a number of passes that depends on all parameters, tests look at a few settings", "anchors": ["bilby/gw/likelihood/multiband.py: _tau, _dtaudf, _find_starting_frequency, _setup_frequency_bands"]}
{"id": "C106", "title": "Multi-banding windows are a partition of unity", "statement": "The windows of all the bands sum to one at every frequency between the minimum and the maximum frequency, vanish outside, and _get_window_sequence gives their values at every grid of frequencies.", "quantifier": "all bands, frequencies, grids, starts and lengths", "why_tests_cant": "all frequencies, including those at the edges of the tapers", "anchors": ["bilby/gw/likelihood/multiband.py: _get_window_sequence"]}
{"id": "C107", "title": "Multi-banded squared norm", "statement": "With linear interpolation the squared norm of a signal is that of the usual likelihood if between the banded frequencies the squared modulus of the signal is affine, and for every signal with one band.", "quantifier": "all data, spectra, bands and such signals", "why_tests_cant": "tests compare a few likelihood values with a tolerance", "anchors": ["bilby/gw/likelihood/multiband.py: _setup_quadratic_coefficients_linear_interp, calculate_snrs"]}
{"id": "C108", "title": "Multi-banded product with the data", "statement": "The product of data and signal equals the usual one if the windowed signal is as short as the band in every band, and for every signal with one band.", "quantifier": "all data, spectra, bands and such signals", "why_tests_cant": "tests compare a few likelihood values with a tolerance", "anchors": ["bilby/gw/likelihood/multiband.py: _setup_integers, _setup_linear_coefficients, calculate_snrs"]}
{"id": "C109", "title": "Calibration spline", "statement": "For every set of node values the spline of the calibration model is the one cubic spline with continuous first and second derivatives and not-a-knot ends through the values at nodes equally spaced in log frequency; it exists and is unique, reproduces cubic polynomials, and needs four nodes or more.", "quantifier": "all node values and numbers of nodes", "why_tests_cant": "tests compare one evaluation with stored numbers", "anchors": ["bilby/gw/detector/calibration.py: CubicSpline._setup_spline_coefficients, _evaluate_spline"]}
{"id": "C110", "title": "Calibration factor", "statement": "The calibration factor is the amplitude factor times a pure phase, has the node values at the node frequencies, and depends only on the parameters given in the call.", "quantifier": "all parameters, frequencies and sequences of calls", "why_tests_cant": "tests call a fresh model once", "anchors": ["bilby/gw/detector/calibration.py: Recalibrate.set_calibration_parameters, CubicSpline.get_calibration_factor"]}
{"id": "C111", "title": "Precomputed calibration curves", "statement": "The curve selected is the one with the given index on the grid of the curves; every other request is refused.", "quantifier": "all indices, grids and curves", "why_tests_cant": "tests use a valid index", "anchors": ["bilby/gw/detector/calibration.py: Precomputed.get_calibration_factor"]}
{"id": "C112", "title": "Calibration files and lookup tables", "statement": "Curves written to a file and read again are the same curves with their own parameters, building a lookup table twice gives the same table, and the curves are those of the detector's calibration model.", "quantifier": "all curves, parameters, numbers of curves and starting indices", "why_tests_cant": "tests read whole files from the first curve", "anchors": ["bilby/gw/detector/calibration.py: read_calibration_file, write_calibration_file, build_calibration_lookup, curves_from_spline_and_prior"]}
{"id": "C113", "title": "Calibration priors", "statement": "The calibration priors have exactly the names the spline reads, the frequencies of its nodes, and the means and widths given or interpolated from the envelope.", "quantifier": "all labels, numbers of nodes and envelopes", "why_tests_cant": "tests compare a few keys", "anchors": ["bilby/gw/prior.py: CalibrationPriorDict.from_envelope_file, constant_uncertainty_spline"]}
{"id": "C114", "title": "Power spectral density objects", "statement": "The density of an object at any frequency is the linear interpolation of the curve last given, infinite outside of its range; the amplitude density is its square root; what is returned does not depend on the queries and changes made before.", "quantifier": "all curves, frequency arrays and histories of assignments and queries", "why_tests_cant": "the cache makes the answer depend on the history; tests query once or twice", "anchors": ["bilby/gw/detector/psd.py: PowerSpectralDensity.psd_array, asd_array, get_power_spectral_density_array, get_amplitude_spectral_density_array, _update_cache"]}
{"id": "C115", "title": "Simulated noise follows the likelihood", "statement": "Data simulated from a power spectral density, with or without a signal, have the exponential of the log likelihood as probability density up to a constant; the spectrum of simulated noise is the density; the matched-filter signal-to-noise ratio is normal about the optimal one.", "quantifier": "all densities, bands, durations, signals and networks", "why_tests_cant": "a statement about the whole distribution; tests compare a sample variance", "anchors": ["bilby/core/utils/series.py: create_white_noise", "bilby/gw/detector/psd.py: get_noise_realisation", "bilby/gw/utils.py: psd_from_freq_series, matched_filter_snr"]}
{"id": "C116", "title": "Injections add the signal", "statement": "Injecting a signal adds its response to the data and changes nothing else; injections can be made in any order; in zero noise the matched-filter signal-to-noise ratio is the optimal one.", "quantifier": "all states of the data, signals and later changes of the band", "why_tests_cant": "tests inject once into data that are zero outside the band", "anchors": ["bilby/gw/detector/interferometer.py: inject_signal_from_waveform_polarizations, matched_filter_snr"]}
{"id": "C117", "title": "Whitening", "statement": "The plain inner product of whitened series is the noise-weighted inner product, and whitened noise consists of independent standard normal numbers in the frequency domain and has unit variance in the time domain.", "quantifier": "all densities, bands, series and even numbers of samples", "why_tests_cant": "tests compare a sample variance within a tolerance", "anchors": ["bilby/gw/detector/interferometer.py: whiten_frequency_series, get_whitened_time_series_from_whitened_frequency_series"]}
{"id": "C118", "title": "Networks are consistent", "statement": "All detectors of a list have the same duration, start time and sampling frequency; a refused operation leaves the list and the data as they were; an injection adds the signal once to every detector.", "quantifier": "all lists and operations on them", "why_tests_cant": "tests use durations that differ a lot and do not look at the list after an exception", "anchors": ["bilby/gw/detector/networks.py: InterferometerList"]}
{"id": "C119", "title": "Triangular detector", "statement": "The three detectors of a triangular interferometer stand at the corners of an equilateral triangle whose sides are their arms; their responses add up to zero.", "quantifier": "all positions, lengths and orientations", "why_tests_cant": "tests check the number of detectors and their names", "anchors": ["bilby/gw/detector/networks.py: TriangularInterferometer"]}
{"id": "C120", "title": "ROQ weights are exact", "statement": "For a signal that is the interpolant of its values at the nodes of the bases, the sums over the linear and quadratic weights are the inner product of the data with the signal at each time sample and the optimal signal-to-noise ratio of the ordinary likelihood.", "quantifier": "all data, densities, bands, bases and time samples", "why_tests_cant": "tests compare the likelihoods at one parameter point within a tolerance, without notches and with bases of one band", "anchors": ["bilby/gw/likelihood/roq.py: ROQGravitationalWaveTransient._set_weights", "bilby/gw/likelihood/roq.py: ROQGravitationalWaveTransient.perform_roq_params_check"]}
{"id": "C121", "title": "ROQ interpolation in time", "statement": "The matched filter between the time samples is reproduced to fourth order in the time step, exactly at the samples; with and without time marginalisation the values are the same; times too close to the ends are refused.", "quantifier": "all times, time steps and data", "why_tests_cant": "tests evaluate at a few times in the middle of the segment", "anchors": ["bilby/gw/likelihood/roq.py: ROQGravitationalWaveTransient._interp_five_samples", "bilby/gw/likelihood/roq.py: ROQGravitationalWaveTransient._calculate_d_inner_h_array"]}
{"id": "C122", "title": "ROQ time samples", "statement": "The time samples cover every arrival time the prior allows; their number is a power of two above the number of bins and takes all detectors into account; the grid of the time marginalisation splits the prior into equal cells and, averaged over the jitter, integrates the likelihood exactly.", "quantifier": "all priors, durations and time steps", "why_tests_cant": "tests look at the number of samples for one configuration", "anchors": ["bilby/gw/likelihood/roq.py: ROQGravitationalWaveTransient._set_weights", "bilby/gw/likelihood/roq.py: ROQGravitationalWaveTransient._get_time_resolution", "bilby/gw/likelihood/roq.py: ROQGravitationalWaveTransient._setup_time_marginalization"]}
{"id": "C123", "title": "Choice of the ROQ basis", "statement": "At every point of the prior the basis whose ranges contain the parameters is used, also after other points have been evaluated; a prior that the bases do not cover is refused; the waveform at the linear and quadratic nodes is taken correctly from the waveform at the distinct nodes.", "quantifier": "all ranges, priors, parameters and sequences of evaluations", "why_tests_cant": "tests use adjacent ranges and few points, and do not continue after an exception", "anchors": ["bilby/gw/likelihood/roq.py: ROQGravitationalWaveTransient._update_basis", "bilby/gw/likelihood/roq.py: ROQGravitationalWaveTransient._select_prior_ranges", "bilby/gw/likelihood/roq.py: ROQGravitationalWaveTransient._verify_prior_ranges"]}
{"id": "C124", "title": "Files of ROQ weights", "statement": "Weights that are saved and loaded with the same priors are unchanged, in every format that accepts them; a file without a basis in the prior is refused.", "quantifier": "all weights, ranges and priors", "why_tests_cant": "tests save and load one set of weights", "anchors": ["bilby/gw/likelihood/roq.py: ROQGravitationalWaveTransient.save_weights", "bilby/gw/likelihood/roq.py: ROQGravitationalWaveTransient.load_weights"]}
{"id": "C125", "title": "Burn-in and thinning of MCMC chains", "statement": "The samples of a chain are the rows after the burn-in in steps of the thinning; the burn-in covers the fixed discard, the steps in which proposals or temperatures adapt, `burn_in_nact` autocorrelation times, and lasts until the log posterior first reaches the bulk; the autocorrelation time is at least `min_tau` and is the largest of the estimates; the reported number of samples is not larger than the number of rows.", "quantifier": "all chains, inputs and sequences of queries", "why_tests_cant": "tests run a few short chains and look only at the number of samples", "anchors": ["bilby/bilby_mcmc/chain.py: Chain.minimum_index", "bilby/bilby_mcmc/chain.py: Chain.tau", "bilby/bilby_mcmc/chain.py: Chain.thin", "bilby/bilby_mcmc/chain.py: Chain.samples", "bilby/bilby_mcmc/chain.py: Chain.nsamples"]}
{"id": "C126", "title": "Convergence of the built-in sampler", "statement": "When the run ends by itself, the chains return at least the target number of samples, and a run in which the autocorrelation time stays bounded ends.", "quantifier": "all targets, chains and sequences of steps", "why_tests_cant": "tests use small targets, which are reached at the first check", "anchors": ["bilby/bilby_mcmc/sampler.py: Bilby_MCMC.draw", "bilby/bilby_mcmc/sampler.py: BilbyPTMCMCSampler.nsamples", "bilby/bilby_mcmc/sampler.py: BilbyMCMCSampler.step"]}
{"id": "C127", "title": "Evidence from tempered chains", "statement": "The stepping-stone estimate is an unbiased estimate of the evidence and the thermodynamic integral is within half a step of it, from the rows after the burn-in of all chains; the evidence of several ensembles is the average and the uncertainties are those of the estimates.", "quantifier": "all likelihoods, ladders, chains and numbers of ensembles", "why_tests_cant": "tests compare the evidence of one Gaussian likelihood with a wide tolerance", "anchors": ["bilby/bilby_mcmc/sampler.py: BilbyPTMCMCSampler.stepping_stone_evidence", "bilby/bilby_mcmc/sampler.py: BilbyPTMCMCSampler.thermodynamic_integration_evidence", "bilby/bilby_mcmc/sampler.py: BilbyPTMCMCSampler.compute_evidence_per_ensemble"]}
{"id": "C128", "title": "Starting point of the built-in sampler", "statement": "The chain starts at the given values and otherwise at a draw from the prior, or at the point of largest posterior among those tried.", "quantifier": "all priors, likelihoods and given values", "why_tests_cant": "tests only check that the sampler starts", "anchors": ["bilby/bilby_mcmc/sampler.py: BilbyMCMCSampler.__init__", "bilby/bilby_mcmc/sampler.py: get_initial_maximimum_posterior_sample"]}
{"id": "C129", "title": "Rejection sampling of tempered chains", "statement": "The rows kept from a tempered chain follow the posterior, the chain itself is not changed, and the sampler does not stop before enough samples would be returned.", "quantifier": "all chains, temperatures and draws", "why_tests_cant": "tests run the option once without looking at the rows", "anchors": ["bilby/bilby_mcmc/sampler.py: BilbyMCMCSampler.rejection_sample_zero_temperature_samples", "bilby/bilby_mcmc/sampler.py: BilbyPTMCMCSampler._calculate_nsamples"]}
{"id": "C130", "title": "Initial temperature ladder", "statement": "The ladder has the requested number of temperatures, starts at one and becomes hotter from chain to chain; inputs for which this is not possible are refused.", "quantifier": "all inputs", "why_tests_cant": "tests use one ladder", "anchors": ["bilby/bilby_mcmc/sampler.py: BilbyPTMCMCSampler.get_initial_betas"]}
{"id": "C131", "title": "Reconstruction of marginalised parameters", "statement": "Every row of the posterior gets a value of each marginalised parameter drawn for this row, also after an interruption and for any number of processes; other columns, order and labels are unchanged, and stored values are used only for the same samples.", "quantifier": "all samples, likelihoods, block sizes, interruptions and seeds", "why_tests_cant": "tests reconstruct a few samples without interruption and check ranges only", "anchors": ["bilby/gw/conversion.py: generate_posterior_samples_from_marginalized_likelihood", "bilby/gw/conversion.py: fill_sample"]}
{"id": "C132", "title": "Quantities computed for every posterior row", "statement": "Per-detector log likelihoods, signal-to-noise ratios and sky-frame parameters stand in the row they were computed from, for all labels of the rows.", "quantifier": "all data frames, including empty ones and other labels", "why_tests_cant": "tests use frames with default labels", "anchors": ["bilby/gw/conversion.py: compute_per_detector_log_likelihoods", "bilby/gw/conversion.py: compute_snrs", "bilby/gw/conversion.py: generate_sky_frame_parameters"]}
{"id": "C133", "title": "Generation of all derived parameters", "statement": "Supplied parameters keep their values, parameters with delta-function priors get the peak, a group of derived parameters that cannot be computed is left out without affecting the others, and a requested subset is returned exactly or refused.", "quantifier": "all samples, priors and likelihoods", "why_tests_cant": "tests check the keys for complete samples", "anchors": ["bilby/gw/conversion.py: _generate_all_cbc_parameters", "bilby/gw/conversion.py: generate_specific_parameters", "bilby/gw/conversion.py: fill_from_fixed_priors"]}
{"id": "C134", "title": "Log factors of the MCMC proposals", "statement": "The log factor that a proposal returns is the logarithm of Q(x|x')/Q(x'|x), taking the boundaries into account, so that Metropolis-Hastings acceptance with it leaves the target distribution invariant.", "quantifier": "all points, ranges, boundaries, scales and laws of the draws", "why_tests_cant": "a wrong factor only biases the samples slightly; tests check that proposed points are in the prior", "anchors": ["bilby/bilby_mcmc/proposals.py: BaseProposal.__call__", "bilby/bilby_mcmc/proposals.py: FixedGaussianProposal", "bilby/bilby_mcmc/proposals.py: AdaptiveGaussianProposal", "bilby/bilby_mcmc/proposals.py: DifferentialEvolutionProposal", "bilby/bilby_mcmc/proposals.py: FixedJumpProposal", "bilby/bilby_mcmc/proposals.py: FisherMatrixProposal", "bilby/bilby_mcmc/proposals.py: PriorProposal", "bilby/bilby_mcmc/proposals.py: _stretch_move"]}
{"id": "C135", "title": "Adaptation of the proposal scale", "statement": "The scale of an adaptive proposal rises after accepted and falls after rejected proposals with a drift that vanishes at the target acceptance, stays positive, and is fixed after the stated number of proposals.", "quantifier": "all counters, scales, targets and runs", "why_tests_cant": "needs long runs and a known optimum", "anchors": ["bilby/bilby_mcmc/proposals.py: AdaptiveGaussianProposal.update_scale", "bilby/bilby_mcmc/proposals.py: DensityEstimateProposal.propose"]}
{"id": "C136", "title": "Training of density-estimate proposals", "statement": "A density estimate is used only after a fit whose draws have at least a tenth of the spread of the chain in every parameter; a fit that fails leaves the previous one in use, and the time to the next fit grows by the stated factor.", "quantifier": "all chains, fits and numbers of parameters", "why_tests_cant": "tests call propose a few times, before any fit", "anchors": ["bilby/bilby_mcmc/proposals.py: DensityEstimateProposal.refit", "bilby/bilby_mcmc/proposals.py: DensityEstimateProposal.propose", "bilby/bilby_mcmc/proposals.py: KDEProposal", "bilby/bilby_mcmc/proposals.py: GMMProposal"]}
{"id": "C137", "title": "Proposals in phase and polarisation", "statement": "The jumps between equivalent values of phase and polarisation have equal densities in both directions, as their log factor of zero states.", "quantifier": "all phases and polarisations, prior ranges and boundaries", "why_tests_cant": "as for C134", "anchors": ["bilby/bilby_mcmc/proposals.py: PhaseReversalProposal", "bilby/bilby_mcmc/proposals.py: PolarisationReversalProposal", "bilby/bilby_mcmc/proposals.py: PhasePolarisationReversalProposal", "bilby/bilby_mcmc/proposals.py: CorrelatedPolarisationPhaseJump"]}
{"id": "C138", "title": "Removing proposals by name", "statement": "A proposal cycle requested with `noXX` has the default proposals in their order without exactly those of kind XX.", "quantifier": "all strings and lists of proposals", "why_tests_cant": "tests try a few names", "anchors": ["bilby/bilby_mcmc/proposals.py: remove_proposals_using_string"]}
{"id": "C139", "title": "Log Jacobians of the jump proposals", "statement": "The log Jacobian that a jump proposal for cpnest reports is the logarithm of Q(x|x')/Q(x'|x), taking the boundaries into account, and the cycle that is given to cpnest reports that of the proposal it has used.", "quantifier": "all points, ranges, boundaries, ensembles and laws of the draws", "why_tests_cant": "a wrong Jacobian only biases the samples; tests compare one call with mocked draws", "anchors": ["bilby/core/sampler/proposal.py: NormJump", "bilby/core/sampler/proposal.py: EnsembleWalk", "bilby/core/sampler/proposal.py: EnsembleStretch", "bilby/core/sampler/proposal.py: DifferentialEvolution", "bilby/core/sampler/proposal.py: EnsembleEigenVector", "bilby/core/sampler/proposal.py: DrawFlatPrior", "bilby/gw/sampler/proposal.py: SkyLocationWanderJump", "bilby/gw/sampler/proposal.py: PolarisationPhaseJump", "bilby/core/sampler/cpnest.py: cpnest_proposal_cycle_factory"]}
{"id": "C140", "title": "Seeds make runs reproducible", "statement": "After bilby.core.utils.random.seed, or with a seed among the arguments of a sampler, the numbers that bilby draws do not depend on what was drawn before.", "quantifier": "all generators, seeds, computations and earlier histories", "why_tests_cant": "tests seed in a fresh process", "anchors": ["bilby/core/utils/random.py: seed", "bilby/core/sampler/base_sampler.py: Sampler._translate_kwargs", "bilby/core/sampler/proposal.py: EnsembleWalk", "bilby/gw/sampler/proposal.py: SkyLocationWanderJump", "bilby/core/sampler/dynesty.py: Dynesty._translate_kwargs"]}
{"id": "C141", "title": "When ptemcee stops", "statement": "When bilby's ptemcee sampler stops, the chain after what is discarded is long compared with an autocorrelation time that is at least that of every parameter, the walkers agree by the statistic of Gelman and Rubin, and the result has more than the requested number of samples; what is discarded covers the fixed number and the iteration at which every temperature has come near its maximum.", "quantifier": "all inputs, chains, estimates of the autocorrelation time, numbers of walkers, steps and temperatures", "why_tests_cant": "a run that stops too early still gives samples; tests run one short chain", "anchors": ["bilby/core/sampler/ptemcee.py: check_iteration", "bilby/core/sampler/ptemcee.py: get_Q_convergence", "bilby/core/sampler/ptemcee.py: calculate_tau_array", "bilby/core/sampler/ptemcee.py: get_minimum_stable_itertion", "bilby/core/sampler/ptemcee.py: Ptemcee.run_sampler"]}
{"id": "C142", "title": "Stored chains and resuming of ptemcee", "statement": "The chain that ptemcee stores consists of the positions of all iterations in order, the result consists of the steps after burn-in at multiples of the thinning with the log likelihood of each sample next to it, and a run that is resumed from its file continues as the interrupted run would have.", "quantifier": "all numbers of iterations, array sizes, slices and interruptions", "why_tests_cant": "the arrays grow only in long runs; tests do not interrupt at every round", "anchors": ["bilby/core/sampler/ptemcee.py: Ptemcee.run_sampler", "bilby/core/sampler/ptemcee.py: Ptemcee.setup_sampler", "bilby/core/sampler/ptemcee.py: checkpoint"]}
{"id": "C143", "title": "Initial positions and periodic parameters of ptemcee", "statement": "Initial positions found by minimisation lie in the range of the prior and the search gives up after a bounded number of failures; a walker that steps over the end of a periodic parameter is moved to the other end.", "quantifier": "all outcomes of the minimisation, draws, ranges and positions", "why_tests_cant": "tests minimise a likelihood on which the minimisation succeeds, and do not count crossings", "anchors": ["bilby/core/sampler/ptemcee.py: Ptemcee.get_pos0_from_minimize", "bilby/core/sampler/ptemcee.py: LikePriorEvaluator", "bilby/core/sampler/ptemcee.py: Ptemcee.run_sampler"]}
{"id": "C144", "title": "Summaries of samples", "statement": "Quantiles of samples increase with the level, lie between the samples, do not depend on their order and follow changes of unit; the credible interval of a summary contains the median and the given fraction of the samples, and intervals of larger level contain those of smaller level; the error bar of a result reaches from the median to the requested quantiles.", "quantifier": "all samples, levels and quantiles", "why_tests_cant": "tests compare with numpy for one sample; counting properties depend on all sizes", "anchors": ["bilby/core/utils/samples.py: SamplesSummary", "bilby/core/result.py: Result.get_one_dimensional_median_and_error_bar"]}
{"id": "C145", "title": "Table of the posterior and quantities derived from it", "statement": "The posterior of a result has one column for each sampled parameter with its samples, one for each fixed parameter with its value, and the log likelihoods and log priors of the same rows; prior values, credible levels of injections, density estimates and weights for a new prior are those of this table.", "quantifier": "all samples, priors, injected values, and sequences of changes of the posterior", "why_tests_cant": "tests use priors without conditions, float injections and a posterior that is set once", "anchors": ["bilby/core/result.py: Result.samples_to_posterior", "bilby/core/result.py: Result.calculate_prior_values", "bilby/core/result.py: Result.get_all_injection_credible_levels", "bilby/core/result.py: Result.kde", "bilby/core/result.py: Result.posterior_probability", "bilby/core/result.py: Result.get_weights_by_new_prior"]}
{"id": "C146", "title": "Occam factor and dimensionality", "statement": "The posterior volume is the square root of the determinant of the covariance, the prior volume is the product of the ranges of the sampled parameters, the Occam factor does not depend on units, and the dimensionality is twice the variance of the log likelihood, which for a Gaussian likelihood is the number of parameters.", "quantifier": "all covariances, ranges, and log likelihoods", "why_tests_cant": "tests check that a number is returned, or one parameter", "anchors": ["bilby/core/result.py: Result.covariance_matrix", "bilby/core/result.py: Result.posterior_volume", "bilby/core/result.py: Result.prior_volume", "bilby/core/result.py: Result.occam_factor", "bilby/core/result.py: Result.bayesian_model_dimensionality"]}
{"id": "C147", "title": "Numerical derivatives", "statement": "The numerical derivative ends for every function, returns a central difference with one of its steps or zero, is exact for polynomials of degree two, and gives one value for each parameter that is not fixed with the other parameters kept.", "quantifier": "all functions, points, steps and tolerances", "why_tests_cant": "tests differentiate a few functions at a few points", "anchors": ["bilby/core/utils/calculus.py: derivatives"]}
{"id": "C148", "title": "Rounding, bounded splines and inspection of functions", "statement": "Rounding up to a power of two gives the least power of two that is not smaller; a bounded spline is the spline inside its rectangle and the fill value outside, and by default the rectangle is that of the grid; the parameters of a function or method are all its arguments except the dependent variable and the instance.", "quantifier": "all numbers, splines, rectangles, points and signatures", "why_tests_cant": "tests use a few values and signatures", "anchors": ["bilby/core/utils/calculus.py: round_up_to_power_of_two", "bilby/core/utils/calculus.py: BoundedRectBivariateSpline", "bilby/core/utils/introspection.py: infer_parameters_from_function", "bilby/core/utils/introspection.py: infer_args_from_function_except_n_args"]}
{"id": "C149", "title": "Services of the base class of the samplers", "statement": "The log likelihood that a sampler evaluates is that of the likelihood at the sampled and fixed parameters, whatever was evaluated before; initial points have finite prior and likelihood and are in the requested number; a pool is created when more than one process is asked for and closed afterwards; only the main process writes the state.", "quantifier": "all likelihoods, priors, parameter vectors, streams of draws and pool settings", "why_tests_cant": "tests mock the likelihood and never use a pool", "anchors": ["bilby/core/sampler/base_sampler.py: Sampler.log_likelihood", "bilby/core/sampler/base_sampler.py: Sampler.log_prior", "bilby/core/sampler/base_sampler.py: NestedSampler.log_likelihood", "bilby/core/sampler/base_sampler.py: Sampler._verify_use_ratio", "bilby/core/sampler/base_sampler.py: Sampler.check_draw", "bilby/core/sampler/base_sampler.py: Sampler.get_initial_points_from_prior", "bilby/core/sampler/base_sampler.py: Sampler.get_random_draw_from_prior", "bilby/core/sampler/base_sampler.py: Sampler._setup_pool", "bilby/core/sampler/base_sampler.py: Sampler._close_pool", "bilby/core/sampler/base_sampler.py: Sampler.write_current_state_and_exit"]}
{"id": "C150", "title": "Use of cached results", "statement": "A result stored on disk is used in place of a run only if the sampled parameters, the fixed parameters, the likelihood and the priors are those of the run; the options for cached results are respected and a run without a usable result starts afresh.", "quantifier": "all stored results, samplers and options", "why_tests_cant": "tests use one stored result", "anchors": ["bilby/core/sampler/base_sampler.py: Sampler._check_cached_result", "bilby/core/result.py: Result._check_attribute_match_to_other_object"]}
{"id": "C151", "title": "Temporary directories and sampling times of the nested samplers", "statement": "A sampler that works in a temporary directory continues from the files of the output directory and leaves all its files there, over any number of interrupted sessions, and the sampling time is the sum of the times of the sessions.", "quantifier": "all sequences of sessions, files and interruptions", "why_tests_cant": "tests run to the end in one session", "anchors": ["bilby/core/sampler/base_sampler.py: _TemporaryFileSamplerMixin", "bilby/core/sampler/pymultinest.py: Pymultinest._dump_callback", "bilby/core/sampler/pymultinest.py: Pymultinest.run_sampler", "bilby/core/sampler/ultranest.py: Ultranest._viz_callback", "bilby/core/sampler/ultranest.py: Ultranest._copy_temporary_directory_contents_to_proper_path"]}
{"id": "C152", "title": "Results and boundaries of pymultinest, ultranest and dnest4", "statement": "Periodic and reflective boundaries of the priors reach the sampler; nested samples have the log likelihoods of the same rows and weights; the prior volume of the remaining samples is divided among them; moves of dnest4 stay in the box and have the returned log factor.", "quantifier": "all priors, outputs of the samplers and moves", "why_tests_cant": "tests check that the samplers run", "anchors": ["bilby/core/sampler/pymultinest.py: Pymultinest._nested_samples", "bilby/core/sampler/pymultinest.py: Pymultinest._apply_multinest_boundaries", "bilby/core/sampler/ultranest.py: Ultranest._generate_result", "bilby/core/sampler/ultranest.py: Ultranest._translate_kwargs", "bilby/core/sampler/ultranest.py: Ultranest._apply_ultranest_boundaries", "bilby/core/sampler/dnest4.py: _DNest4Model.perturb", "bilby/core/sampler/dnest4.py: DNest4.__init__"]}
{"id": "C153", "title": "Results of emcee and kombine", "statement": "The result contains the samples of all walkers after the burn-in and no others, with the log likelihood and log prior of each sample in the same row; some samples remain; the walkers are stored one by one; a run that is interrupted and resumed has the same length and burn-in as one that is not.", "quantifier": "all chains, numbers of walkers and steps, burn-in settings and interruptions", "why_tests_cant": "tests compare lengths or run with too few steps to notice the order", "anchors": ["bilby/core/sampler/emcee.py: Emcee.nburn", "bilby/core/sampler/emcee.py: Emcee.run_sampler", "bilby/core/sampler/emcee.py: Emcee._generate_result", "bilby/core/sampler/kombine.py: Kombine.run_sampler"]}
{"id": "C154", "title": "The model passed to nessai and its weights", "statement": "The maps between the unit cube and the parameters are inverse to each other; weights of nested samples are positive and add up to one with the ratios computed by nessai; every keyword reaches either the construction or the run.", "quantifier": "all priors, points, weights and keywords", "why_tests_cant": "tests mock nessai and use priors without conditions", "anchors": ["bilby/core/sampler/nessai.py: Nessai.get_nessai_model", "bilby/core/sampler/nessai.py: Nessai.split_kwargs", "bilby/core/sampler/nessai.py: Nessai.get_posterior_weights"]}
{"id": "C155", "title": "Tidal parameters of a binary neutron star", "statement": "Whatever tidal parameters are sampled, the conversion gives the two deformabilities that they stand for: those that are given, those that have the sampled combinations, those of the binary Love relations, or those of the equation of state at the component masses, with a marker if the equation of state does not allow them; rows of arrays are converted one by one.", "quantifier": "all dictionaries of parameters, masses and equations of state", "why_tests_cant": "tests convert a few dictionaries and only check which keys appear", "anchors": ["bilby/gw/conversion.py: convert_to_lal_binary_neutron_star_parameters", "bilby/gw/conversion.py: log_pressure_reparameterization_conversion", "bilby/gw/conversion.py: spectral_pca_to_spectral", "bilby/gw/conversion.py: spectral_params_to_lambda_1_lambda_2", "bilby/gw/conversion.py: polytrope_or_causal_params_to_lambda_1_lambda_2", "bilby/gw/conversion.py: neutron_star_family_physical_check", "bilby/gw/conversion.py: lambda_from_mass_and_family", "bilby/gw/conversion.py: binary_love_fit_lambda_symmetric_mass_ratio_to_lambda_antisymmetric", "bilby/gw/conversion.py: binary_love_lambda_symmetric_to_lambda_1_lambda_2_manual_marginalisation", "bilby/gw/conversion.py: binary_love_lambda_symmetric_to_lambda_1_lambda_2_automatic_marginalisation", "bilby/gw/conversion.py: generate_tidal_parameters"]}
{"id": "C156", "title": "Burst models", "statement": "The polarisations of a sine-Gaussian burst are the Fourier transforms of a cosine and a sine of the given frequency under a Gaussian envelope, and have the given root-sum-square amplitude; the amplitude of a supernova is that of the simulation at ten kiloparsecs and falls with the distance.", "quantifier": "all amplitudes, quality factors, frequencies, distances and simulations", "why_tests_cant": "tests compare with copies of the formulas at one point", "anchors": ["bilby/gw/source.py: sinegaussian", "bilby/gw/source.py: supernova", "bilby/gw/source.py: supernova_pca_model"]}
{"id": "C157", "title": "Waveforms of compact binaries on the grid of frequencies", "statement": "The source functions give, for each frequency in the requested band, the waveform of LALSimulation at that frequency and zero outside; time-domain waveforms are translated by their epoch; waveforms outside of their domain give no waveform; all variants agree on the defaults; the nodes of reduced-order quadratures get the waveform at these nodes.", "quantifier": "all grids, bands, waveforms, errors, keywords and nodes", "why_tests_cant": "tests use one grid that starts at zero and compare shapes", "anchors": ["bilby/gw/source.py: _base_lal_cbc_fd_waveform", "bilby/gw/source.py: gwsignal_binary_black_hole", "bilby/gw/source.py: set_waveform_dictionary", "bilby/gw/source.py: _base_roq_waveform", "bilby/gw/source.py: lal_binary_black_hole_relative_binning", "bilby/gw/source.py: binary_black_hole_roq", "bilby/gw/source.py: binary_neutron_star_roq"]}
{"id": "C158", "title": "Runs, checkpoints and results of dynesty", "statement": "A run with checkpoints, interrupted and resumed any number of times, ends in the state of an uninterrupted run with the same limits; checkpoints are written in the requested interval; the sampling time is the sum of the times of all sessions; nested samples enter the posterior with probability proportional to their weight and keep their log likelihood; the options for bounds, proposals and walks are consistent or rejected.", "quantifier": "all samplers of dynesty, limits, checkpoint intervals, interruptions, weights and options", "why_tests_cant": "tests mock dynesty or run it once for a short time", "anchors": ["bilby/core/sampler/dynesty.py: Dynesty.run_sampler", "bilby/core/sampler/dynesty.py: Dynesty._run_external_sampler_with_checkpointing", "bilby/core/sampler/dynesty.py: Dynesty._run_external_sampler_without_checkpointing", "bilby/core/sampler/dynesty.py: Dynesty.read_saved_state", "bilby/core/sampler/dynesty.py: Dynesty.write_current_state", "bilby/core/sampler/dynesty.py: Dynesty._update_sampling_time", "bilby/core/sampler/dynesty.py: Dynesty._generate_result", "bilby/core/sampler/dynesty.py: Dynesty._print_func", "bilby/core/sampler/dynesty.py: Dynesty._set_sampling_method", "bilby/core/sampler/dynesty.py: Dynesty._apply_dynesty_boundaries", "bilby/core/sampler/dynesty.py: Dynesty.finalize_sampler_kwargs", "bilby/core/sampler/dynamic_dynesty.py: DynamicDynesty.nlive"]}
{"id": "C159", "title": "Access to strain data", "statement": "Data are those of the requested interval, channel and rate; a cache returns what the same request returned before and is only used when asked for; requests to the data server cover the interval; arguments of LALSimulation are converted in order; the phase of the calibration is that of its parameter.", "quantifier": "all requests, states of files and servers, channels, times and parameters", "why_tests_cant": "tests need a network or mock the libraries", "anchors": ["bilby/gw/utils.py: get_open_strain_data", "bilby/gw/utils.py: read_frame_file", "bilby/gw/utils.py: get_gracedb", "bilby/gw/utils.py: gw_data_find", "bilby/gw/utils.py: convert_args_list_to_float", "bilby/gw/utils.py: _get_lalsim_approximant", "bilby/gw/utils.py: spline_angle_xform"]}
{"id": "C160", "title": "Priors and likelihoods translated for PyMC", "statement": "Every prior with a translation has, up to a constant, the same density in PyMC as in bilby; bounds and starting values are those of the prior; the likelihood is evaluated at the sampled and fixed values of the parameters with the known standard deviation; step methods and their options are the requested ones or rejected.", "quantifier": "all parameters of the priors, values, likelihoods, step methods and options", "why_tests_cant": "tests check that objects are created and not their densities", "anchors": ["bilby/core/sampler/pymc.py: Pymc.setup_prior_mapping", "bilby/core/sampler/pymc.py: Pymc.set_prior", "bilby/core/sampler/pymc.py: Pymc.run_sampler", "bilby/core/sampler/pymc.py: Pymc.set_likelihood"]}
{"id": "C161", "title": "Options, files and results of PolyChord, PTMCMC, CPNest, emcee and zeus", "statement": "Samples in the files of the samplers are read back with their own log likelihoods; the burn-in is discarded; options reach exactly one function of the sampler under the name it expects, and given options are kept; initial positions are accepted exactly when they have one row per walker.", "quantifier": "all options, numbers of dimensions and walkers, files and positions", "why_tests_cant": "the samplers are optional and mocked in most tests", "anchors": ["bilby/core/sampler/polychord.py: PyPolyChord.run_sampler", "bilby/core/sampler/polychord.py: PyPolyChord._setup_dynamic_defaults", "bilby/core/sampler/ptmcmc.py: PTMCMCSampler.run_sampler", "bilby/core/sampler/ptmcmc.py: PTMCMCSampler.sampler_init_kwargs", "bilby/core/sampler/cpnest.py: Cpnest.run_sampler", "bilby/core/sampler/cpnest.py: Cpnest._verify_kwargs_against_default_kwargs", "bilby/core/sampler/emcee.py: Emcee.sampler_function_kwargs", "bilby/core/sampler/emcee.py: Emcee.sampler_init_kwargs", "bilby/core/sampler/emcee.py: Emcee.write_chains_to_file", "bilby/core/sampler/emcee.py: Emcee._set_pos0", "bilby/core/sampler/zeus.py: Zeus._translate_kwargs", "bilby/core/sampler/zeus.py: Zeus.run_sampler"]}
{"id": "C162", "title": "Tables and spectral models of the equation of state", "statement": "Pseudo-enthalpies of a table increase and follow from the trapezoidal rule; the functions between pressure, energy density and pseudo-enthalpy pass through the table and agree with each other below it; spectral models have the adiabatic index of their coefficients and increase; checks of monotonicity and causality report exactly the tables that violate them; units are converted consistently.", "quantifier": "all tables, interpolators with the nodes reproduced, coefficients, values and names", "why_tests_cant": "tests use a few files of the package", "anchors": ["bilby/gw/eos/eos.py: TabularEOS.__init__", "bilby/gw/eos/eos.py: TabularEOS.check_monotonicity", "bilby/gw/eos/eos.py: TabularEOS.check_causality", "bilby/gw/eos/eos.py: TabularEOS.energy_from_pressure", "bilby/gw/eos/eos.py: TabularEOS.pressure_from_pseudo_enthalpy", "bilby/gw/eos/eos.py: TabularEOS.plot", "bilby/gw/eos/eos.py: SpectralDecompositionEOS.__init__", "bilby/gw/eos/eos.py: SpectralDecompositionEOS.energy_density", "bilby/gw/eos/eos.py: conversion_dict"]}
{"id": "C163", "title": "Structure and tidal deformability of neutron stars", "statement": "The integrated equations are those of Tolman, Oppenheimer and Volkoff with the static quadrupole perturbation, started with the solution near the centre; the Love number is the published one with the Newtonian limit; the masses of a family increase up to the maximum mass; radius, Love number and deformability of a mass of the family are those of its star.", "quantifier": "all equations of state, central values, compactnesses, families and masses", "why_tests_cant": "tests compare single numbers", "anchors": ["bilby/gw/eos/tov_solver.py: IntegrateTOV.__init__", "bilby/gw/eos/tov_solver.py: IntegrateTOV.__tov_eqns", "bilby/gw/eos/tov_solver.py: IntegrateTOV.__calc_k2", "bilby/gw/eos/tov_solver.py: IntegrateTOV.integrate_TOV", "bilby/gw/eos/eos.py: EOSFamily.__init__", "bilby/gw/eos/eos.py: EOSFamily.radius_from_mass", "bilby/gw/eos/eos.py: EOSFamily.k2_from_mass", "bilby/gw/eos/eos.py: EOSFamily.lambda_from_mass"]}
{"id": "C164", "title": "Comparison, filtering and export of strain data", "statement": "Strain data compare as equal exactly if band, sampling, start time, notches and strain agree; a time is inside the data exactly between start and end; notch lists are accepted exactly if all notches are positive intervals; a low pass filter acts on the strain in both domains; exported series carry the samples at the times and frequencies of the arrays; the arrays of the two spectral densities belong to each other.", "quantifier": "all strain data, times, notch lists, filters and sampling settings", "why_tests_cant": "tests compare a few objects and values", "anchors": ["bilby/gw/detector/strain_data.py: InterferometerStrainData.__eq__", "bilby/gw/detector/strain_data.py: InterferometerStrainData.time_within_data", "bilby/gw/detector/strain_data.py: InterferometerStrainData.notch_list", "bilby/gw/detector/strain_data.py: InterferometerStrainData.low_pass_filter", "bilby/gw/detector/strain_data.py: InterferometerStrainData.to_gwpy_timeseries", "bilby/gw/detector/strain_data.py: InterferometerStrainData.to_pycbc_frequencyseries", "bilby/gw/detector/strain_data.py: InterferometerStrainData.to_lal_frequencyseries", "bilby/gw/detector/strain_data.py: Notch.check_frequency", "bilby/gw/detector/strain_data.py: NotchList.check_frequency", "bilby/gw/detector/interferometer.py: Interferometer.amplitude_spectral_density_array"]}
{"id": "C165", "title": "Segments of data and injections into them", "statement": "The safe duration is the smallest power of two from four seconds on that is longer than the signal; a signal injected into a time series begins at the sample nearest to its arrival and data too short for it are rejected; stored signal-to-noise ratios are those of the injected signal; signals longer than the data are an error or a warning as asked for; the default segment of simulated data contains the event; data are loaded from a frame exactly if it covers both segments; the detector of a channel is the part before the colon.", "quantifier": "all chirp times, data, signals, arrival times, masses, segments, frames and channel names", "why_tests_cant": "tests inject a few signals", "anchors": ["bilby/gw/detector/__init__.py: get_safe_signal_duration", "bilby/gw/detector/__init__.py: inject_signal_into_gwpy_timeseries", "bilby/gw/detector/__init__.py: get_interferometer_with_fake_noise_and_injection", "bilby/gw/detector/__init__.py: load_data_from_cache_file", "bilby/gw/detector/__init__.py: load_data_by_channel_name", "bilby/gw/detector/interferometer.py: Interferometer.check_signal_duration", "bilby/gw/detector/interferometer.py: Interferometer.inject_signal", "bilby/gw/utils.py: calculate_time_to_merger"]}
{"id": "C166", "title": "Files of detectors and of spectral densities", "statement": "The file of a detector assigns each key the value after the first equality sign of its last line, comments and empty lines aside; the shape chooses the class and is not passed on; unknown names and shapes are errors that name the cause; a spectral density comes from the last of the arrays and files given, files are looked for locally and then in the package; doubtful units are reported; equal objects have the same density.", "quantifier": "all files, values, shapes, arrays, directories and frequencies", "why_tests_cant": "tests load the files of the package", "anchors": ["bilby/gw/detector/networks.py: load_interferometer", "bilby/gw/detector/networks.py: get_empty_interferometer", "bilby/gw/detector/psd.py: PowerSpectralDensity.__init__", "bilby/gw/detector/psd.py: PowerSpectralDensity.psd_file", "bilby/gw/detector/psd.py: PowerSpectralDensity.asd_file", "bilby/gw/detector/psd.py: PowerSpectralDensity.__validate_file_name", "bilby/gw/detector/psd.py: PowerSpectralDensity.__eq__"]}
{"id": "C167", "title": "Setting up a transient likelihood", "statement": "The basic likelihood has the noise value and the ratio of the one with marginalisations; the sums over detectors do not depend on their order; the values stored for the detectors add up to the ratio; priors that are marginalised over stay with the likelihood while the user's are fixed at reference values and no others change, fixed priors are rejected, missing ones have defaults and cosmological ones are converted; the generator takes over the segment of the data; the reference frame can be given as text, names or detectors.", "quantifier": "all data, signals, detectors, dictionaries of priors, combinations of marginalisations and names", "why_tests_cant": "tests construct likelihoods for single combinations", "anchors": ["bilby/gw/likelihood/basic.py: BasicGravitationalWaveTransient.log_likelihood", "bilby/gw/likelihood/basic.py: BasicGravitationalWaveTransient.noise_log_likelihood", "bilby/gw/likelihood/base.py: GravitationalWaveTransient.__init__", "bilby/gw/likelihood/base.py: GravitationalWaveTransient._check_marginalized_prior_is_set", "bilby/gw/likelihood/base.py: GravitationalWaveTransient._check_set_duration_and_sampling_frequency_of_waveform_generator", "bilby/gw/likelihood/base.py: GravitationalWaveTransient.compute_per_detector_log_likelihood", "bilby/gw/likelihood/base.py: GravitationalWaveTransient.reference_frame", "bilby/gw/likelihood/base.py: GravitationalWaveTransient._CalculatedSNRs.__add__"]}
{"id": "C168", "title": "Options of multi-banded and relative likelihoods", "statement": "Options of the multi-banded likelihood are the numbers given or defaults that cover every arrival the prior allows; a likelihood set up from the weights of another one has the same attributes; the fiducial signal of the relative likelihood has the reference values of marginalised parameters and is cut at the last frequency where it does not vanish; the search for its maximum uses the bounds of the priors and ends with a fiducial signal of the parameters it returns.", "quantifier": "all options, priors, segments, weights and their orders, fiducial parameters and optimisers", "why_tests_cant": "tests set single options", "anchors": ["bilby/gw/likelihood/multiband.py: MBGravitationalWaveTransient.reference_chirp_mass", "bilby/gw/likelihood/multiband.py: MBGravitationalWaveTransient.time_offset", "bilby/gw/likelihood/multiband.py: MBGravitationalWaveTransient.delta_f_end", "bilby/gw/likelihood/multiband.py: MBGravitationalWaveTransient.weights", "bilby/gw/likelihood/multiband.py: MBGravitationalWaveTransient.setup_multibanding_from_weights", "bilby/gw/likelihood/relative.py: RelativeBinningGravitationalWaveTransient.__init__", "bilby/gw/likelihood/relative.py: RelativeBinningGravitationalWaveTransient.set_fiducial_waveforms", "bilby/gw/likelihood/relative.py: RelativeBinningGravitationalWaveTransient.find_maximum_likelihood_parameters", "bilby/gw/likelihood/relative.py: RelativeBinningGravitationalWaveTransient.get_parameter_dictionary_from_list", "bilby/gw/likelihood/relative.py: RelativeBinningGravitationalWaveTransient.get_bounds_from_priors"]}
{"id": "C169", "title": "Proposals of a cycle", "statement": "The cycles of proposals can be built for the priors which the sampler accepts; every sampled parameter is moved by one of the proposals and no other is; proposals removed by name are those of the named classes; the weights are normalised and the cycle is long enough for each proposal; moves of the phase are the same for samples in phase and in its difference; the validation of a prior says whether its signals fit into the data.", "quantifier": "all sets of keys and of fixed parameters, classes of priors, draws, samples and durations", "why_tests_cant": "tests build the cycle for single priors", "anchors": ["bilby/bilby_mcmc/proposals.py: get_proposal_cycle", "bilby/bilby_mcmc/proposals.py: BaseProposal.__init__", "bilby/bilby_mcmc/proposals.py: BaseProposal.acceptance_ratio", "bilby/bilby_mcmc/proposals.py: ProposalCycle.__init__", "bilby/bilby_mcmc/proposals.py: remove_proposals_using_string", "bilby/bilby_mcmc/proposals.py: BaseGravitationalWaveTransientProposal.get_phase", "bilby/bilby_mcmc/proposals.py: BaseGravitationalWaveTransientProposal.get_delta_phase", "bilby/bilby_mcmc/proposals.py: CorrelatedPolarisationPhaseJump.propose", "bilby/bilby_mcmc/proposals.py: PhaseReversalProposal.propose", "bilby/gw/prior.py: CBCPriorDict.is_nonempty_intersection", "bilby/gw/prior.py: CBCPriorDict.validate_prior"]}
{"id": "C170", "title": "Likelihoods on grids", "statement": "The points of a grid are those asked for or divide the prior; each entry of the array is the likelihood at its point; exponentials are normalised to their maximum; grids saved to files are read back as they were.", "quantifier": "all numbers of parameters, points, sizes, likelihoods, files and options", "why_tests_cant": "tests evaluate single small grids", "anchors": ["bilby/core/grid.py: Grid._get_sample_points", "bilby/core/grid.py: Grid._evaluate", "bilby/core/grid.py: Grid._evaluate_recursion", "bilby/core/grid.py: Grid.marginalize_likelihood", "bilby/core/grid.py: Grid.marginalize_posterior", "bilby/core/grid.py: Grid.save_to_file", "bilby/core/grid.py: Grid.read", "bilby/core/grid.py: Grid._get_save_data_dictionary", "bilby/core/grid.py: grid_file_name"]}
{"id": "C171", "title": "Squared norms by Fourier transforms in the multi-banded likelihood", "statement": "Without linear interpolation the squared norm of a signal is the usual one of one time series per band, which fills only the end of the segment and whose spectrum at the frequencies of the band is the signal times the root of the window; it equals the usual squared norm if the signal is as short as each band; it is not negative, is defined for all bands, and does not depend on earlier evaluations.", "quantifier": "all bands, signals, power spectral densities, masks, durations and histories of evaluations", "why_tests_cant": "tests compare with the usual likelihood for one signal and up to a tolerance", "anchors": ["bilby/gw/likelihood/multiband.py: MBGravitationalWaveTransient._setup_quadratic_coefficients_ifft_fft", "bilby/gw/likelihood/multiband.py: MBGravitationalWaveTransient.calculate_snrs", "bilby/gw/likelihood/multiband.py: MBGravitationalWaveTransient._setup_waveform_frequency_points"]}
{"id": "C172", "title": "Proposals of the walks of dynesty", "statement": "Differential evolution moves the clustered coordinates along the difference of two live points, with factor one or a factor from the documented Gamma distribution, and volumetric proposals by the axes applied to a point that is uniform in the unit ball; the other coordinates are drawn anew; both are reversible; the proposals of a dictionary are chosen in proportion to their weights; the cache is rebuilt exactly if it ran low in one of the processes.", "quantifier": "all points, live points, axes, scales, weights, sequences of blobs and random numbers", "why_tests_cant": "tests compare single draws for a fixed seed", "anchors": ["bilby/core/sampler/dynesty_utils.py: propose_differetial_evolution", "bilby/core/sampler/dynesty_utils.py: propose_volumetric", "bilby/core/sampler/dynesty_utils.py: _get_proposal_kwargs", "bilby/core/sampler/dynesty_utils.py: LivePointSampler.update_user"]}
{"id": "C173", "title": "Plots of credible levels against fractions", "statement": "A curve of a P-P plot is the fraction of events with a smaller credible level; for independent uniform levels the number of events is binomial and the curve lies in each band with at least its probability; finitely many posterior samples shift the expected curve by at most one over their number plus one; each interval gets a transparency and each parameter its own line; labels are made safe.", "quantifier": "all credible levels, numbers of events, confidence intervals, transparencies, lines and labels", "why_tests_cant": "tests only check that a figure is made and compare single numbers", "anchors": ["bilby/core/result.py: make_pp_plot", "bilby/core/result.py: sanity_check_labels"]}
{"id": "C174", "title": "Weights of multi-banded reduced-order quadratures", "statement": "The linear weights of a multi-banded basis give the usual noise-weighted product with a shifted signal if the signal is a sum over the bands of series that end with the segment and are not longer than the band; the quadratic weights give the usual sum of the power over the spectral density if the correlations are shorter than half a band; every bin of every band is used once.", "quantifier": "all data, masks, spectral densities, bands, durations, bins and times", "why_tests_cant": "tests compare the weights with those of ordinary bases for one waveform within a tolerance", "anchors": ["bilby/gw/likelihood/roq.py: ROQGravitationalWaveTransient._set_weights_linear_multiband", "bilby/gw/likelihood/roq.py: ROQGravitationalWaveTransient._set_weights_quadratic_multiband"]}
{"id": "C175", "title": "Setting up reduced-order quadratures and drawing their times", "statement": "A basis is read by its file ending, an array is taken transposed; the parameters of two basis files are merged to the band both allow; several bases need one prior range and one array of nodes each; nodes given in one place serve in both; each time drawn from the time-marginalised likelihood has its posterior probability.", "quantifier": "all file names, arrays, parameters, ranges, nodes, likelihood values, priors and jitters", "why_tests_cant": "tests use two basis files and compare histograms of reconstructed times by eye", "anchors": ["bilby/gw/likelihood/roq.py: ROQGravitationalWaveTransient._parse_basis", "bilby/gw/likelihood/roq.py: ROQGravitationalWaveTransient.__init__", "bilby/gw/likelihood/roq.py: ROQGravitationalWaveTransient._verify_numbers_of_prior_ranges_and_frequency_nodes", "bilby/gw/likelihood/roq.py: ROQGravitationalWaveTransient._check_frequency_nodes_exist_for_single_basis", "bilby/gw/likelihood/roq.py: ROQGravitationalWaveTransient.generate_time_sample_from_marginalized_likelihood"]}
{"id": "C176", "title": "Check points, restarts and reports of the built-in MCMC sampler", "statement": "Writing a check point does not change the running sampler and never stores the pool; a restart with the same settings continues with the same chains, changed settings are used or refused, and without the wish to resume a new run starts; at every pass the file of a run longer than the interval is not older than the interval and two writes are further apart; the numbers of chains, likelihood evaluations and seconds reported are the true ones.", "quantifier": "all settings, samplers, resume files, times of check points, temperatures and run times", "why_tests_cant": "tests run the sampler for seconds with one set of settings and never restart with others", "anchors": ["bilby/bilby_mcmc/sampler.py: Bilby_MCMC.check_point", "bilby/bilby_mcmc/sampler.py: Bilby_MCMC.read_current_state", "bilby/bilby_mcmc/sampler.py: Bilby_MCMC.write_current_state", "bilby/bilby_mcmc/sampler.py: Bilby_MCMC.setup_chain_set", "bilby/bilby_mcmc/sampler.py: Bilby_MCMC.add_data_to_result", "bilby/bilby_mcmc/sampler.py: BilbyPTMCMCSampler.setup_sampler_dictionary"]}
{"id": "C177", "title": "Figures of the posterior of the waveform and of the calibration", "statement": "The figure of the waveforms uses all samples or the number asked for, the frequencies of the band thinned to about 4000 and the times around the mean time; its band is the symmetric interval of the level and contains the line drawn; an injection is drawn on the waveform with its parameters. The figure of the calibration pairs amplitudes and phases with their frequencies and shows the interval of the level.", "quantifier": "all posteriors, numbers of samples, masks, times, levels, densities, signals and names of nodes", "why_tests_cant": "tests only check that files with the figures exist", "anchors": ["bilby/gw/result.py: CompactBinaryCoalescenceResult.plot_interferometer_waveform_posterior", "bilby/gw/result.py: CompactBinaryCoalescenceResult.plot_calibration_posterior", "bilby/gw/utils.py: plot_spline_pos"]}
{"id": "C178", "title": "Corner plots and other figures of results", "statement": "A corner plot shows the parameters asked for, else those sampled, with the true values given by a dictionary, a list of the same length or the injection, and without them if they are turned off or several results are drawn; sampled parameters are labelled with units. The marginal is marked at the true value and drawn with the priors asked for or those of the result, if it has some. The figure of the walkers shows all steps, that of a fit the row with the largest likelihood.", "quantifier": "all parameters, truths, injections, labels, priors, walkers and posteriors", "why_tests_cant": "tests only check that files with the figures exist", "anchors": ["bilby/core/result.py: Result.plot_corner", "bilby/core/result.py: Result.get_latex_labels_from_parameter_keys", "bilby/core/result.py: Result.priors", "bilby/core/result.py: Result.plot_single_density", "bilby/core/result.py: Result.plot_marginals", "bilby/core/result.py: Result.plot_walkers", "bilby/core/result.py: Result.plot_with_data", "bilby/core/result.py: Result.to_arviz", "bilby/core/result.py: plot_multiple"]}
{"id": "C179", "title": "Likelihoods of Gaussian processes", "statement": "The likelihood of a Gaussian process is that of the process with the current parameters, whatever the order in which they are kept, and minus infinity if the process raises an exception; setting parameters changes the process and the dictionary, and names the process does not know are passed over; a mean model made for a package is of that package, has the arguments of the function after the first as parameters and its values.", "quantifier": "all processes, parameters, updates, functions and log likelihoods", "why_tests_cant": "tests need celerite and george and use two fixed kernels", "anchors": ["bilby/core/likelihood.py: _GPLikelihood", "bilby/core/likelihood.py: CeleriteLikelihood.log_likelihood", "bilby/core/likelihood.py: GeorgeLikelihood.log_likelihood", "bilby/core/likelihood.py: function_to_celerite_mean_model", "bilby/core/likelihood.py: function_to_george_mean_model"]}
{"id": "C180", "title": "Evidence from ptemcee", "statement": "The evidence reported for ptemcee is the integral over all inverse temperatures from zero to one of the mean log likelihood over walkers and steps after the burn-in, up to the error of the trapezium rule.", "quantifier": "all ladders, chains, burn-ins and log likelihoods", "why_tests_cant": "the evidence of a run is random and tests do not compare it", "anchors": ["bilby/core/sampler/ptemcee.py: compute_evidence"]}
{"id": "C181", "title": "Samplers by name, checks before a run and the fake sampler", "statement": "Every sampler listed is found under its name, with or without the prefix of the package, plug-ins first; a name is contained if it can be looked up. A run starts only with parameters that are not redundant and a likelihood that can be evaluated. The fake sampler returns the likelihood at every row of its file and follows its arguments.", "quantifier": "all registries, names, likelihoods, options and files", "why_tests_cant": "tests use the installed entry points and one file", "anchors": ["bilby/core/sampler/__init__.py: ImplementedSamplers", "bilby/core/sampler/__init__.py: get_sampler_class", "bilby/core/sampler/base_sampler.py: Sampler._verify_parameters", "bilby/core/sampler/base_sampler.py: Sampler.npool", "bilby/core/sampler/fake_sampler.py: FakeSampler"]}
{"id": "C182", "title": "Failed waveforms, dictionaries of LALSimulation and checks of families of neutron stars", "statement": "Waveforms at chosen frequencies do not depend on the grid; if errors are caught, parameters outside of the domain of a waveform have likelihood zero for every source model. The dictionary passed to LALSimulation holds the settings of the call and no others. A family of neutron stars passes the check only if its masses increase over the first eight points, and the prior of the check follows it. The identity map adds fixed parameters and changes nothing else.", "quantifier": "all frequencies, errors, settings, masses and samples", "why_tests_cant": "errors of LALSimulation are not provoked in tests of the quadratures, and tests use fixed equations of state", "anchors": ["bilby/gw/source.py: _base_waveform_frequency_sequence", "bilby/gw/source.py: _base_roq_waveform", "bilby/gw/source.py: set_waveform_dictionary", "bilby/gw/conversion.py: eos_family_physical_check", "bilby/gw/prior.py: EOSCheck", "bilby/gw/conversion.py: identity_map_generation"]}
{"id": "C183", "title": "Training of the normalising flow until its draws agree with the chain", "statement": "The flow is trained until the largest Jensen-Shannon divergence, over the parameters, between its draws and the chain is below a threshold, which is looked at every tenth epoch, or until the maximum of epochs. The divergence is symmetric, zero exactly for equal densities and largest, one bit, for disjoint ones, and is taken over the range of both samples. Only a flow that passed is used; before that the fallback is. Trainings become rarer by a factor. Every parameter is changed by one of the couplings of the flow.", "quantifier": "all samples, density estimates, epochs, thresholds and numbers of parameters", "why_tests_cant": "tests with the flow run a few proposals in two dimensions and look at the shape of the result only", "anchors": ["bilby/bilby_mcmc/proposals.py: NormalizingFlowProposal._calculate_js", "bilby/bilby_mcmc/proposals.py: NormalizingFlowProposal.train", "bilby/bilby_mcmc/proposals.py: NormalizingFlowProposal.propose", "bilby/bilby_mcmc/proposals.py: NormalizingFlowProposal.setup_flow", "bilby/bilby_mcmc/flows.py: NVPFlow.__init__"]}
{"id": "C184", "title": "Lists of results read from files, and the error of their combined evidence", "statement": "Files are read in order, with a pickled file in place of a missing one; files that cannot be read are left out, or refused with the level error. A result whose saving failed is found through its pickled file. A list is made of results and files, and of nothing if nothing is given. The error of a combined evidence lies between the errors of the runs, is positive, and decreases with the number of runs.", "quantifier": "all file names, sets of files, levels, objects and errors", "why_tests_cant": "tests read lists of existing files and compare the error with the same formula", "anchors": ["bilby/core/result.py: read_in_result_list", "bilby/core/result.py: ResultList.__init__", "bilby/core/result.py: ResultList.append", "bilby/core/result.py: ResultList._combine_nested_sampled_runs", "bilby/core/result.py: ResultList._combine_mcmc_sampled_runs"]}
{"id": "C185", "title": "Attributes of a result, their saving and reading, and the written posterior", "statement": "A result with priors that is rebuilt from what it saves has the same attributes. Properties without a value raise and are not saved. Reading keeps the class where it is stored. The summary names the samples, the evidences with errors and the Bayes factor, and is empty without posterior. The written posterior has the columns of numbers, where a complex column is replaced by modulus and angle.", "quantifier": "all arguments of the constructor, all sets of missing values, all classes and all posteriors with distinct column names", "why_tests_cant": "tests save and read results with all attributes present and compare a few of them", "anchors": ["bilby/core/result.py: Result.__init__", "bilby/core/result.py: Result._get_save_data_dictionary", "bilby/core/result.py: Result.save_to_file", "bilby/core/result.py: Result.from_hdf5", "bilby/core/result.py: Result.from_json", "bilby/core/result.py: Result.__str__", "bilby/core/result.py: Result.save_posterior_samples"]}
{"id": "C186", "title": "Samples, random rows, sets of tempered samplers and their evidence in bilby-mcmc", "statement": "The parameters of a sample are its entries other than log likelihood and log prior. Rows drawn from a chain exist, and are past the burn-in once the chain is long. Samplers returned by a pool in any order are put back in their places; every sampler is tempered or at zero temperature; tempered lists have one sampler per temperature. The thermodynamic integral uses the rows after the burn-in, from hot to cold. The bootstrap of the stepping stones draws existing rows and has an error if the chain is longer than a block.", "quantifier": "all samples, chains, sets of samplers and draws", "why_tests_cant": "tests run chains of a fixed length with one set of temperatures", "anchors": ["bilby/bilby_mcmc/chain.py: Sample", "bilby/bilby_mcmc/chain.py: Chain._random_idx", "bilby/bilby_mcmc/chain.py: calculate_tau", "bilby/bilby_mcmc/sampler.py: BilbyPTMCMCSampler.sampler_list", "bilby/bilby_mcmc/sampler.py: BilbyPTMCMCSampler.sampler_list_by_column", "bilby/bilby_mcmc/sampler.py: BilbyPTMCMCSampler.sampler_list_of_tempered_lists", "bilby/bilby_mcmc/sampler.py: BilbyPTMCMCSampler.compute_evidence", "bilby/bilby_mcmc/sampler.py: BilbyPTMCMCSampler.thermodynamic_integration_evidence", "bilby/bilby_mcmc/sampler.py: BilbyPTMCMCSampler.stepping_stone_evidence", "bilby/bilby_mcmc/sampler.py: BilbyPTMCMCSampler.rejection_sampling_count"]}
{"id": "C187", "title": "Arguments and starting points of the ensemble samplers", "statement": "Every option of emcee, kombine, zeus and ptemcee reaches exactly one of the calls of the external package (construction, burn-in, sampling), under the name that the installed version uses and with the user's value; the evaluation, the number of parameters and the starting points are added. Starting points given as data frames, arrays or dictionaries of the right shape are used in the order of the search parameters, others are refused. A point where a constraint fails has the lowest log likelihood, and wrapping moves only periodic parameters, by whole periods. Not so: with a single parameter emcee accepts no array of starting points, and starting points outside the prior are not refused.", "quantifier": "For all dictionaries of options and values, numbers of walkers, temperatures and parameters, shapes and values of starting points.", "why_tests_cant": "The tests give each sampler one dictionary of options; the split of the options, the shapes of starting points and one-parameter cases are not compared in general.", "anchors": ["bilby/core/sampler/emcee.py: Emcee.sampler_function_kwargs", "bilby/core/sampler/emcee.py: Emcee.sampler_init_kwargs", "bilby/core/sampler/emcee.py: Emcee._set_pos0", "bilby/core/sampler/kombine.py: Kombine.sampler_init_kwargs", "bilby/core/sampler/zeus.py: Zeus.sampler_init_kwargs", "bilby/core/sampler/ptemcee.py: Ptemcee.get_pos0", "bilby/core/sampler/ptemcee.py: LikePriorEvaluator.logl"]}
{"id": "C188", "title": "Comparison of priors, joint distributions, geometries, calibration models and detectors", "statement": "Comparing with == answers whether two objects were made from the same arguments: priors by class, attributes and arguments, interpolated priors by their arrays, geometries by their eight parameters, calibration models by their attributes and detectors by all of these; detectors that differ in name, geometry or noise never raise. Equal geometries give the same vertex, arms and tensor after the same operations. Not so: a prior with an array entry that is not a number differs from itself; interpolated priors with different names are equal; joint distributions are compared up to one part in a hundred thousand, not symmetrically, and differ after one of them was sampled; comparing two separately made spline calibration models, or detectors with them, raises.", "quantifier": "For all classes, attributes, arguments and arrays; for all geometries and operations on them; for all detectors, spectral densities and data.", "why_tests_cant": "The tests compare a few pairs of objects; near equality, values that are not numbers, used distributions and spline models in memory twice are not compared.", "anchors": ["bilby/core/prior/base.py: Prior.__eq__", "bilby/core/prior/interpolated.py: Interped.__eq__", "bilby/core/prior/joint.py: MultivariateGaussianDist.__eq__", "bilby/gw/prior.py: HealPixMapPriorDist.__eq__", "bilby/gw/detector/geometry.py: InterferometerGeometry.__eq__", "bilby/gw/detector/calibration.py: Recalibrate.__eq__", "bilby/gw/detector/interferometer.py: Interferometer.__eq__"]}
{"id": "C189", "title": "Joint draw of all marginalised parameters", "statement": "Drawing the marginalised parameters of a posterior sample one after the other - response curve, time, distance, phase - each from the likelihood averaged over exactly those drawn later, is a draw of all of them together from the posterior distribution at the fixed values of the others. The returned parameters have the drawn values (later steps do not undo earlier ones), the phase is drawn for the waveform at the drawn distance, and nothing else changes but the sky position and the time; without marginalisation nothing is drawn. Not so: with a sky position in a detector frame and the time alone marginalised, the returned right ascension belongs to the time before the draw.", "quantifier": "For all combinations of marginalised parameters, all likelihoods and priors on grids, all parameter dictionaries and draws, all reference frames and times.", "why_tests_cant": "The tests check each reconstruction by itself on one event; the distribution of all draws together and interplay between steps are not tested.", "anchors": ["bilby/gw/likelihood/base.py: GravitationalWaveTransient.generate_posterior_sample_from_marginalized_likelihood", "bilby/gw/likelihood/base.py: GravitationalWaveTransient.get_calibration_log_likelihoods", "bilby/gw/likelihood/base.py: GravitationalWaveTransient.generate_time_sample_from_marginalized_likelihood", "bilby/gw/likelihood/base.py: GravitationalWaveTransient.generate_distance_sample_from_marginalized_likelihood", "bilby/gw/likelihood/base.py: GravitationalWaveTransient.generate_phase_sample_from_marginalized_likelihood"]}
{"id": "C190", "title": "Signals, logging and commands around a run", "statement": "While a sampler runs, the three signals that ask it to stop are handled by the sampler, and after it has returned the handlers are those from before, whatever was done to them meanwhile, also for nested calls; the outcome of the method is passed on. Any sequence of calls of setup_logger leaves one handler for the terminal and at most one file, all with the level of the last call. Commands run with output asked for give their output or raise. The stored autocorrelation time is the longest over the parameters, rounded down. Base names of output files end with a slash, and temporary directories are used for one process alone. Not so: after an exception, or where there is no SIGALRM, the handlers of the sampler stay; a second label does not start a new log file; a logger with a file gets no handler for the terminal; a command without output that fails goes unnoticed although errors were to be raised; a chain with a constant parameter gives a ValueError instead of no autocorrelation time.", "quantifier": "For all handlers, methods, outcomes and platforms, all sequences of calls of setup_logger, all commands, all estimates of autocorrelation times, all directories and labels.", "why_tests_cant": "Signals, several calls in one process, failing commands and estimates with nan are not covered by the tests.", "anchors": ["bilby/core/sampler/base_sampler.py: signal_wrapper", "bilby/core/sampler/base_sampler.py: Sampler.calc_likelihood_count", "bilby/core/sampler/base_sampler.py: MCMCSampler.calculate_autocorrelation", "bilby/core/sampler/base_sampler.py: _TemporaryFileSamplerMixin.outputfiles_basename", "bilby/core/utils/log.py: setup_logger", "bilby/core/utils/cmd.py: set_up_command_line_arguments", "bilby/core/utils/cmd.py: run_commandline"]}
{"id": "C191", "title": "Distances, redshifts and masses in the source frame", "statement": "In an expanding universe the conversions between luminosity distance, comoving distance and redshift undo each other within the redshifts looked for, and larger distances have larger redshifts. generate_source_frame_parameters adds the redshift and comoving distance of the luminosity distance and each mass divided by one plus the redshift, so that the source-frame masses are consistent with each other; it changes nothing else, and doing it twice changes nothing. Not so: the distance 0 gives an error; a redshift given without luminosity distance is not used; a redshift that does not belong to the luminosity distance is replaced; a distance out of reach ends the whole conversion with an error where a missing one is passed over.", "quantifier": "For all cosmologies in which both distances grow with the redshift, all distances, redshifts and masses, all samples.", "why_tests_cant": "The tests compare conversions at a few distances in one cosmology; errors of the search for the redshift are not tested.", "anchors": ["bilby/gw/conversion.py: luminosity_distance_to_redshift", "bilby/gw/conversion.py: comoving_distance_to_redshift", "bilby/gw/conversion.py: comoving_distance_to_luminosity_distance", "bilby/gw/conversion.py: luminosity_distance_to_comoving_distance", "bilby/gw/conversion.py: generate_source_frame_parameters", "bilby/gw/conversion.py: _generate_all_cbc_parameters", "bilby/gw/cosmology.py: z_at_value"]}
{"id": "C192", "title": "Results report the analysis they come from", "statement": "For a run with a sampler given by name, the properties of a binary result - sampling frequency, duration, start time, marginalisations, classes, waveform arguments, detector names and injection properties - are those of its likelihood, waveform generator and detectors at the start of the run, whatever the user gave in the dictionary under the names of the run; everything else the user gave is kept. The injection properties of a detector are those of the last injection. Missing entries are an AttributeError. Not so: detectors with the same name share one entry; detectors without injection have properties; for a likelihood without meta data there is another kind of error; for a sampler given as object nothing of this reaches the result.", "quantifier": "For all likelihoods, networks of detectors, waveform arguments, injections, user dictionaries, names of attributes.", "why_tests_cant": "The tests set the meta data of a result by hand, so that what a run writes and what a result reads are never compared.", "anchors": ["bilby/gw/result.py: CompactBinaryCoalescenceResult.__get_from_nested_meta_data", "bilby/gw/result.py: CompactBinaryCoalescenceResult.sampling_frequency", "bilby/gw/result.py: CompactBinaryCoalescenceResult.interferometers", "bilby/gw/result.py: CompactBinaryCoalescenceResult.detector_injection_properties", "bilby/gw/likelihood/base.py: GravitationalWaveTransient.meta_data", "bilby/gw/detector/networks.py: InterferometerList.meta_data", "bilby/gw/detector/interferometer.py: Interferometer.inject_signal_from_waveform_polarizations", "bilby/core/sampler/__init__.py: run_sampler", "bilby/core/likelihood.py: Likelihood.meta_data"]}
{"id": "C193", "title": "Options of nested samplers reach the sampler", "statement": "Options with a default that a user gives keep their values from the constructor to the external sampler; those without default are removed. Files go to the directory named by the output directory, the sampler and the label, through the temporary directory if there is one, and options and result name the final directory; running the same sampler again uses the same one. Ultranest gets no option twice and, without a number of live points, all of its options; PolyChord gets all options apart from the place of the files; a seed under a general name goes to the sampler and to bilby's own generator. Not so: a directory given by the user is dropped before the run (pymultinest, DNest4, ultranest); ultranest stores the name of the temporary directory, cannot be run twice, and with a number of live points drops limits and callbacks; use_polychord_defaults drops all options with the seed; DNest4 accepts two options without using them; nestle replaces a callback of the user; a configuration file of nessai wins over the options of the user; a seed under the sampler's own name leaves bilby's generator random.", "quantifier": "For all options, defaults, directories, labels, temporary directories, seeds and aliases, all sequences of two runs.", "why_tests_cant": "The tests check translation of options on constructed samplers and run each sampler once with few options; what arrives at the external sampler is not observed.", "anchors": ["bilby/core/sampler/pymultinest.py: Pymultinest._verify_kwargs_against_default_kwargs", "bilby/core/sampler/pymultinest.py: Pymultinest.run_sampler", "bilby/core/sampler/dnest4.py: DNest4.run_sampler", "bilby/core/sampler/dnest4.py: DNest4._set_dnest4_kwargs", "bilby/core/sampler/ultranest.py: Ultranest.run_sampler", "bilby/core/sampler/ultranest.py: Ultranest.sampler_function_kwargs", "bilby/core/sampler/ultranest.py: Ultranest.sampler_init_kwargs", "bilby/core/sampler/polychord.py: PyPolyChord.run_sampler", "bilby/core/sampler/nestle.py: Nestle._verify_kwargs_against_default_kwargs", "bilby/core/sampler/nessai.py: Nessai._verify_kwargs_against_default_kwargs", "bilby/core/sampler/base_sampler.py: Sampler._translate_kwargs", "bilby/core/sampler/base_sampler.py: _TemporaryFileSamplerMixin._setup_run_directory"]}
{"id": "C194", "title": "Nested encoded objects, cosmologies and lists of packages", "statement": "What is read from a JSON file is decoded: decoding it again, as the setter of the meta data of a result does, changes nothing, and dictionaries without tags are returned as they are at any depth. Meta data given with encoded objects become what reading them from a file would give, if no encoded object is inside another one or in a list. A cosmology of a class of astropy is read with its class and the values of its parameters, and quantities are read as they were. The list of packages is that of conda in one of its environments, otherwise, or if conda fails, that of pip, otherwise the loaded modules that are not part of others with their versions. Not so: encoded objects inside others reach the constructor encoded, those in lists stay encoded; the name and meta data of a cosmology are lost, and a cosmology of a class outside astropy makes the file unreadable; if pip fails the run ends with its error.", "quantifier": "For all nested dictionaries and lists, all decoders of tagged dictionaries, all cosmologies, quantities, modules and lists of packages.", "why_tests_cant": "The tests write and read a few objects of each kind; nested encoded objects in meta data, renamed cosmologies, and environments without conda or pip are not among them.", "anchors": ["bilby/core/utils/io.py: recursively_decode_bilby_json", "bilby/core/utils/io.py: load_json", "bilby/core/utils/io.py: encode_astropy_cosmology", "bilby/core/utils/io.py: decode_astropy_cosmology", "bilby/core/utils/io.py: encode_astropy_quantity", "bilby/core/utils/io.py: decode_astropy_quantity", "bilby/core/utils/log.py: loaded_modules_dict", "bilby/core/utils/log.py: env_package_list", "bilby/core/result.py: Result.meta_data"]}
{"id": "C195", "title": "Files of detectors, their data and ROQ weights are found and read again", "statement": "A detector saved with a label to an existing directory, and a list of detectors saved to any directory, are read as they were, and no other file changes; a file is only read as object of the class that wrote it. The data of detectors with different names go to different files, each with its own contents, and a saved density used with data without window is the density that was used when saving. ROQ weights saved under a name without the format, or with the format as extension, are found under this name with the extension and read in this format; npz files always have their extension. Not so: saving a detector makes the directory outdir instead of the one given, and fails without a label; triangular detectors are saved as lists of detectors but not read as such; saving data does not make the directory; files with different labels can coincide; a saved density used with the same windowed data counts the window twice; names or directories that contain the format give ROQ weights without extension or with another name.", "quantifier": "For all names, labels, directories, file systems, detectors, densities, window factors and formats.", "why_tests_cant": "The tests save and read one object in a fresh directory called outdir with simple names.", "anchors": ["bilby/gw/detector/interferometer.py: Interferometer.to_pickle", "bilby/gw/detector/interferometer.py: Interferometer.from_pickle", "bilby/gw/detector/interferometer.py: Interferometer.save_data", "bilby/gw/detector/networks.py: InterferometerList.to_pickle", "bilby/gw/detector/networks.py: InterferometerList.from_pickle", "bilby/gw/detector/networks.py: InterferometerList.save_data", "bilby/gw/likelihood/roq.py: ROQGravitationalWaveTransient.save_weights", "bilby/gw/likelihood/roq.py: ROQGravitationalWaveTransient.load_weights"]}
{"id": "C196", "title": "Constraints hold at every point a sampler evaluates", "statement": "Constraints are evaluated as they say: a point passes exactly if each derived quantity is strictly inside its range. With the priors for binaries a sampler sees the likelihood exactly at points where all constraints hold for all parameters, fixed ones included, and the lowest value at the others; these are the points that can be drawn from the priors, all of which satisfy the constraints and have the fixed values. With other conversions this is so if what they derive does not need fixed parameters. The implementations for nested samplers, dynesty and ptemcee agree. Not so: with a conversion function given by the user, a constraint on a quantity that needs a fixed parameter is not applied by samplers, although no draw from the priors violates it; constraints on quantities that the conversion does not give are passed over.", "quantifier": "For all priors, conversions, points, likelihoods and sequences of draws.", "why_tests_cant": "Constraints are tested on complete samples of one dictionary; points of samplers with some parameters fixed are not.", "anchors": ["bilby/core/prior/dict.py: PriorDict.evaluate_constraints", "bilby/core/prior/dict.py: PriorDict.sample_subset_constrained", "bilby/gw/conversion.py: fill_from_fixed_priors", "bilby/gw/prior.py: BBHPriorDict.default_conversion_function", "bilby/core/sampler/base_sampler.py: NestedSampler.log_likelihood", "bilby/core/sampler/dynesty.py: _log_likelihood_wrapper", "bilby/core/sampler/ptemcee.py: LikePriorEvaluator.logl"]}
{"id": "C197", "title": "Filling missing priors and drawing arrays give what was asked for", "statement": "Filling leaves the priors of the dictionary as they are, turns numbers into delta functions, adds only parameters of the likelihood that are missing, and adds the prior of the file of defaults; without a file nothing is added. A plain dictionary gets every default there is, whatever the order of the missing keys. For binaries filling puts no more sampled parameters into a set than are independent; a parameter that stays without prior has no default or belongs to a full set; if all sets have room for their missing keys every default is added. Draws as an array have one row for each key, in the order of the keys, and leave the list of keys as it is, if no key is a constraint. Not so: for binaries with less room the sampled parameters depend on the order of a set of strings, which changes between processes; fixed parameters do not count, so both component masses are sampled although fixed parameters determine them; with constraints among the keys one draw raises KeyError, several draws delete them from the list of the caller and return fewer rows, and IndexError is raised if nothing else is asked for.", "quantifier": "For all dictionaries, likelihood parameters, files of defaults, orders of the missing keys, lists of keys and draws.", "why_tests_cant": "The tests fill dictionaries with one missing key and draw arrays without constraints; the order of a set is fixed within one process.", "anchors": ["bilby/core/prior/dict.py: PriorDict.fill_priors", "bilby/core/prior/dict.py: PriorDict.convert_floats_to_delta_functions", "bilby/core/prior/dict.py: create_default_prior", "bilby/core/prior/dict.py: PriorDict.sample_subset_constrained", "bilby/core/prior/dict.py: PriorDict.sample_subset_constrained_as_array", "bilby/gw/prior.py: BBHPriorDict.test_redundancy"]}
{"id": "C198", "title": "Steps and swaps of the built-in sampler keep the tempered posterior", "statement": "If the current sample is drawn from the tempered posterior, prior times likelihood to the power of the inverse temperature, then so is the sample after one internal step, for every proposal density, symmetric or not, whose log factor is the logarithm of the ratio of the densities; hence after any number of steps with any sequence of such proposals. Trying a swap of neighbouring temperatures keeps the product of their tempered posteriors.", "quantifier": "For all parameter spaces with a reference measure, priors and likelihoods that may vanish, positive inverse temperatures, proposal densities, chains and numbers of steps.", "why_tests_cant": "The tests run short chains and compare a few moments; no run can show that a law is kept exactly, nor for every proposal.", "anchors": ["bilby/bilby_mcmc/sampler.py: BilbyMCMCSampler.step", "bilby/bilby_mcmc/sampler.py: BilbyPTMCMCSampler.swap_tempered_chains"]}
{"id": "C199", "title": "Walks of dynesty keep the prior above the threshold", "statement": "Without reflective parameters the steps of the walks keep the uniform law on the part of the unit cube with a likelihood above the threshold: differential evolution, over all the ordered pairs of different live points and for each value of the other random numbers; volumetric proposals, over opposite normal numbers; and walks of any number of steps whose displacements have a symmetric law. Periodic parameters are wrapped. Not so with two reflective parameters: from the uniform law one step of differential evolution gives a quarter of the unit square a probability of at most one eighth, for two live points on the diagonal.", "quantifier": "For all dimensions, likelihoods with a measurable region, thresholds, sets of periodic parameters, numbers of clustered parameters (the others are drawn from their prior), live points that do not depend on the current point, scales and random numbers.", "why_tests_cant": "The tests check single proposals and boundaries; no sample shows that a law is kept, and the failure of reflections needs a region that a test would have to know.", "anchors": ["bilby/core/sampler/dynesty_utils.py: FixedRWalk", "bilby/core/sampler/dynesty_utils.py: propose_differetial_evolution", "bilby/core/sampler/dynesty_utils.py: propose_volumetric", "bilby/core/sampler/dynesty_utils.py: apply_boundaries_"]}
{"id": "C200", "title": "Labels of priors and of the parameters of results", "statement": "A label that is given is kept, otherwise it is that of the table for the name, or the name; a unit follows in brackets. Writing and reading a prior keeps its labels, whatever the table. A new result has the labels of its priors in the order of the sampled parameters; figures show them, and other keys with spaces for underscores; legends and figures of chains show the labels of the priors. Not so: a prior without name but with unit is shown as None with the unit; a prior whose name changes keeps the old label; the labels of the same constructor depend on whether the package for gravitational waves is imported; a result keeps the labels of the first priors, and loses given labels if it has no priors.", "quantifier": "For all names, labels, units, tables, lists of sampled parameters, priors and keys.", "why_tests_cant": "The tests compare labels of a few priors with names; they import the whole package.", "anchors": ["bilby/core/prior/base.py: Prior.latex_label", "bilby/core/prior/base.py: Prior.latex_label_with_unit", "bilby/core/prior/base.py: Prior.get_instantiation_dict", "bilby/core/result.py: Result.priors", "bilby/core/result.py: Result.get_latex_labels_from_parameter_keys", "bilby/core/result.py: make_pp_plot", "bilby/bilby_mcmc/chain.py: Chain._get_plot_label_by_key"]}
{"id": "C201", "title": "Reference frequencies of approximants with spins at the lowest frequency", "statement": "A generator for compact binaries that could be made uses a reference frequency equal to the lowest one if the approximant takes its spins there; equal frequencies are accepted, unequal ones are refused, and other approximants are not restricted. Not so: arguments that the source model has defaults for are required, so that generators whose frequencies in use are equal are refused with KeyError.", "quantifier": "For all approximants and waveform arguments.", "why_tests_cant": "The tests make generators with all the arguments for one approximant.", "anchors": ["bilby/gw/waveform_generator.py: LALCBCWaveformGenerator.validate_reference_frequency", "bilby/gw/utils.py: lalsim_GetApproximantFromString"]}
{"id": "C202", "title": "Constrained draws are independent draws from the prior given the constraints", "statement": "If single draws are independent with the law of the prior and the constraints hold with positive probability, then, given that constrained sampling has returned within a number of batches, whatever this number, the rows it returns are independent and each has the law of the prior given the constraints; so has a single constrained draw, given that it was found within a number of tries. The probability that sampling has returned goes to one with the number of batches or tries.", "quantifier": "For all priors (any joint law of the keys), constraints, conversions, lists of keys with at least one that is not a constraint, numbers of requested rows and of batches, and measurable sets of values for each row.", "why_tests_cant": "The tests check that a few constrained draws satisfy the constraints; a bias of the draws, for instance from keeping the most recent accepted rows or from rows used twice, does not show there.", "anchors": ["bilby/core/prior/dict.py: PriorDict.sample_subset_constrained", "bilby/core/prior/dict.py: PriorDict.sample_subset"]}
{"id": "C203", "title": "Estimate of the normalisation of constrained priors", "statement": "An estimate is the number of rows over that of accepted ones, of the first chunk if enough of its rows are accepted, else of the chunks after it up to the first with which there are enough. It is at least one, and one if no constraint applies or all rows satisfy them. It comes with a probability that goes to one with the number of chunks if the constraints hold with positive probability. The factor is within one and a half standard deviations of the mean of the estimates, and at least one if their standard deviation is below 10/3. Not so: for constraints that no row satisfies the factor, and so the probability of any sample, never comes; for chunks of one row the estimate is one whatever the constraints; estimates that scatter more may be rounded to a factor of zero.", "quantifier": "For all rows, chunks, constraints, required numbers of accepted rows, numbers of repeats and lists of estimates.", "why_tests_cant": "The tests compare the factor with the known one for a few constraints that hold for a good part of the prior.", "anchors": ["bilby/core/prior/dict.py: PriorDict.normalize_constraint_factor", "bilby/core/prior/dict.py: PriorDict._estimate_normalization"]}
{"id": "C204", "title": "The law of the rows that rejection sampling keeps", "statement": "Rows are kept independently, each with the probability of its weight over the largest weight, which gives the law of the set of kept rows; what is kept depends on the weights only. The expected sum of any function over the kept rows, over their expected number, is the weighted mean over all rows. If one row has the largest weight there can be, other rows, drawn independently from any law, are kept as independent draws from the reweighted law. Not so in general: the largest weight is that of the rows at hand, and a single row is kept whatever its weight.", "quantifier": "For all weights that are not negative, sets of rows, functions of the rows, laws of the rows with bounded measurable weights, and measurable sets.", "why_tests_cant": "The tests check that the kept rows are a subset; the law of the kept rows cannot be read off a single run.", "anchors": ["bilby/core/result.py: rejection_sample", "bilby/core/result.py: reweight"]}
{"id": "C205", "title": "The evidence of a reweighted result is unbiased", "statement": "For posterior samples drawn independently from the posterior of the old model, and a result with the evidence of that model, the expected evidence of the reweighted result is the integral of the new likelihood times the new prior over the parameters that the old model allows, whatever the number of samples. It is the evidence of the new model if the old model allows all its parameters. Not so otherwise: the part of the evidence from other parameters is missing.", "quantifier": "For all measures on the parameters, measurable log likelihoods and log priors of both models (minus infinity included), numbers of samples and draws of the rejection sampling.", "why_tests_cant": "The tests reweight one result; an expectation over posterior samples does not show in a single run.", "anchors": ["bilby/core/result.py: reweight", "bilby/core/result.py: get_weights_for_reweighting"]}
{"id": "C206", "title": "The hyper-parameter likelihood is unbiased", "statement": "If the samples of each event follow its posterior under the sampling prior and the events are independent, the exponential of the log likelihood ratio is on average the product over the events of the evidence under the population model divided by that under the sampling prior, for any number of samples of each event and however correlated they are. Not so for the logarithm that is returned: its mean is not the logarithm of that product.", "quantifier": "For all measures on the parameters, measurable non-negative likelihoods of the events, positive sampling priors and population densities, numbers of events and samples.", "why_tests_cant": "The tests evaluate the likelihood for fixed samples; an expectation over samples does not show in a single value.", "anchors": ["bilby/hyper/likelihood.py: HyperparameterLikelihood.log_likelihood_ratio"]}
{"id": "C207", "title": "Rows of combined nested-sampling runs", "statement": "When nested-sampling runs of the same analysis are combined, the expected sum of any function over the rows of the combined posterior is the sum over the runs of the run's evidence over the largest evidence times the sum over its rows. The expected number of rows follows with the function one. If all runs have the same number of rows, the ratio of the two is the mean of the runs' means weighted by their evidences. Not so for different numbers of rows: a run then counts in proportion to its evidence times its number of rows.", "quantifier": "For all numbers of runs from two on, posteriors and evidences of runs that agree in sampler, data, parameters and priors, real functions of a row, and shuffles of the rows.", "why_tests_cant": "The tests combine runs with one set of draws and compare the number of rows; the expectation over draws and the case of posteriors of different lengths are not tested.", "anchors": ["bilby/core/result.py: ResultList.combine", "bilby/core/result.py: ResultList._combine_nested_sampled_runs"]}
{"id": "C208", "title": "A restart of the built-in sampler that asks for more samples gets them", "statement": "If a run of the built-in MCMC sampler is restarted from its check point with other convergence inputs, and stops, its zero-temperature chains return at least the number of samples asked for in the restart. Without stop_after_convergence, every pass takes a step of every chain. Not so with stop_after_convergence: the chains that were marked as converged stay so and take no step, so that a restart for more samples than they have steps never stops.", "quantifier": "For all earlier runs, numbers of chains, data, sequences of messages and convergence inputs of the restart whose minimum autocorrelation time is positive and not larger than before.", "why_tests_cant": "The tests restart runs with the same inputs; that a run never stops cannot be seen in a test that ends.", "anchors": ["bilby/bilby_mcmc/sampler.py: Bilby_MCMC.draw", "bilby/bilby_mcmc/sampler.py: BilbyMCMCSampler.step", "bilby/bilby_mcmc/sampler.py: BilbyMCMCSampler.nsamples", "bilby/bilby_mcmc/sampler.py: BilbyMCMCSampler.set_convergence_inputs"]}
{"id": "C209", "title": "Options given to the built-in MCMC sampler reach its chains", "statement": "Every option of the built-in MCMC sampler has the value given for it, also under the other names of printdt and check_point_delta_t, or else its default. The tempering, the numbers of internal steps and the convergence settings of every chain are those asked for, at the start and after a restart; a restart changes no other attribute of the chains, and is an error when the tempering is another. The number of processes is the argument npool. Not so for the other names of npool, such as threads, and for target_nsamples: both are dropped.", "quantifier": "For all keyword arguments, defaults and numbers of chains; for restarts, settings that can be compared.", "why_tests_cant": "The tests look at a few options of the sampler object and not at the chains; a dropped option changes speed and accuracy only.", "anchors": ["bilby/bilby_mcmc/sampler.py: Bilby_MCMC.__init__", "bilby/bilby_mcmc/sampler.py: Bilby_MCMC._translate_kwargs", "bilby/bilby_mcmc/sampler.py: BilbyPTMCMCSampler.set_pt_inputs", "bilby/bilby_mcmc/sampler.py: BilbyPTMCMCSampler.set_convergence_inputs", "bilby/bilby_mcmc/sampler.py: BilbyMCMCSampler.set_convergence_inputs", "bilby/bilby_mcmc/sampler.py: Bilby_MCMC.read_current_state"]}
