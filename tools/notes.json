{
 "C01": {
  "note": "All analytic priors; priors with infinite ends: probabilities in the open (half-open) interval plus a separate endpoint theorem."
 },
 "C02": {
  "note": "Full for all priors except: PowerLaw (cdf wrong below the minimum for non-positive arguments) and Cosine/Sine with non-default bounds (prob not normalised); both violations proved."
 },
 "C03": {
  "note": "Full except PowerLaw at 0 with minimum 0 and SymmetricLogUniform off its support; both violations proved."
 },
 "C04": {
  "note": "Sampling law as the law of rescale applied to a uniform variate; PowerLaw uses the corrected cdf."
 },
 "C05": {
  "note": "Full except PowerLaw below the minimum (violation proved)."
 },
 "C06": {
  "note": "For constructed priors over any slab whose rescale inverts a monotone cdf; setters are C68."
 },
 "C07": {
  "note": "Full for all changes of the bounds; with yy assignments as long as the bounds stay inside the last assigned table; otherwise violation proved (table becomes identically zero)."
 },
 "C08": {
  "note": "Double precision of the upper end is modelled: n<=16 prob correct; n>=17 the last category has prob 0 (violation for every such n); rescale(1)=n violation; sampling law up to 2e-15."
 },
 "C68": {
  "note": "Violated: setter does not refresh the split point."
 },
 "C09": {
  "note": "Full, for dictionaries whose entries are priors with distinct keys; numbers are first converted."
 },
 "C10": {
  "note": "Whenever sampling returns (and it returns once enough rows are accepted); copy() drops the conversion function (violation proved)."
 },
 "C11": {
  "note": "prob full; ln_prob full for finite densities; violated when a density is +inf and a constraint fails."
 },
 "C12": {
  "note": "Holds until an entry is replaced; violated afterwards because the cached factor is never recomputed."
 },
 "C13": {
  "note": "Full, over every history of construction, edits and calls; each unresolvable set of keys is reported."
 },
 "C14": {
  "note": "Holds without edits and for the edits stated; violated after an edit that changes the order and after a fixed parameter was evaluated elsewhere."
 },
 "C15": {
  "note": "Complete samples and condition functions that set a fixed set of attributes; violated otherwise."
 },
 "C16": {
  "note": "Simplex membership for every history of calls; density constant (n-1)!."
 },
 "C17": {
  "note": "Round trip for arguments whose printed values contain no comma outside one level of brackets; violated for nested brackets, two bracketed arguments sharing a removal, lists and strings with spaces. Evaluation of a single argument string (Python eval) is not modelled."
 },
 "C18": {
  "note": "Full: periodic and reflective maps for every real, also per parameter and on the unit cube."
 },
 "C19": {
  "note": "Periodic part full; reflective part except at odd multiples of the range beyond the maximum, where the point is left outside (violation proved)."
 },
 "C20": {
  "note": "Full for appends, non-negative indices and negative indices down to the first sample; index -(n+1) returns a zero row instead of an error (violation proved)."
 },
 "C21": {
  "note": "All move types except ensembles in full; ensembles for likelihoods that are never +inf (violated otherwise)."
 },
 "C22": {
  "note": "Full detailed balance of the Metropolis-Hastings step for every target, temperature and proposal density."
 },
 "C23": {
  "note": "Full detailed balance of the swap between neighbouring temperatures."
 },
 "C24": {
  "note": "The swapped rows are exchanged exactly; violated for the state from which the chains continue."
 },
 "C25": {
  "note": "Order kept for all but the last pair; the last pair can cross (violation proved)."
 },
 "C26": {
  "note": "Full over every number of calls, for both proposal cycles."
 },
 "C27": {
  "note": "Holds for unbounded priors (falls back to the prior draw); the drawn value is not within the prior bounds otherwise (violation proved)."
 },
 "C28": {
  "note": "Range, density, law and detailed balance for both stretch implementations."
 },
 "C29": {
  "note": "Fixed-length walk full; acceptance tracking for nact ≤ maxmcmc (violated otherwise); cached walk not below the threshold over every history, strictly above it directly after a rebuild (violated for equality and for walks without acceptance)."
 },
 "C69": {
  "note": "Range and convergence for nlive ≥ 10; division by zero below (violation proved)."
 },
 "C70": {
  "note": "The current point is not removed (violation proved); distinctness and membership proved."
 },
 "C30": {
  "note": "Process crash at every primitive action and over every history of attempts; negation for power loss, since nothing is synced to disk."
 },
 "C31": {
  "note": "File, directory and repeated saves; negation for the fallback pickle file, which replaces an existing file."
 },
 "C32": {
  "note": "All values of the supported grammar, any nesting, and whole results with their prior dictionary; negations for tuples, non-string keys, tag collisions, frame and series indices, empty leading dimensions, local functions and prior dictionaries outside the `priors` attribute."
 },
 "C33": {
  "note": "Round trip on the faithful subset at any depth; negations for each lossy type and for the class of the prior dictionary."
 },
 "C34": {
  "note": "Save/read agreement for every directory, label, extension and gzip flag; negations for from_pickle, absolute labels and file names whose suffix differs from the extension."
 },
 "C71": {
  "note": "A signal before or after a dump is harmless; negation for a signal in between with a non-empty remainder."
 },
 "C72": {
  "note": "Holds without callables; negation otherwise."
 },
 "C35": {
  "note": "Full: kept rows, order, extremes and keep probability for all weights and draws."
 },
 "C36": {
  "note": "Exact condition for a correct resume; every history when the first row has the smallest |log likelihood|; negations for the general resume (zeros instead of priors) and for a file torn by a crash during its write."
 },
 "C37": {
  "note": "Posterior and nested-sample evidence; conversion function and resume file not part of this theorem."
 },
 "C38": {
  "note": "Refusal, acceptance, mean evidence, kept rows and keep probability; negation when the first result has an empty prior dictionary."
 },
 "C39": {
  "note": "Full, weighted and unweighted, including missing parameters."
 },
 "C42": {
  "note": "Full for non-negative steps, array or scalar; scipy's max-shift is modelled, so the overflow claim is a theorem."
 },
 "C43": {
  "note": "Full: value, bounds, equality case and invariance."
 },
 "C73": {
  "note": "Violated for every successful call; the partial theorem lists what is untouched."
 },
 "C74": {
  "note": "Holds for combined results; violated by reweight whenever the evidence changes."
 },
 "C40": {
  "note": "Sum and isolation for every list of plain components and update history; negations for nested joint likelihoods and for the fake sampler's replaced dictionary."
 },
 "C41": {
  "note": "Gaussian, exponential, Poisson, Student-t, multinomial and bimodal likelihoods; negation for zero Poisson rates."
 },
 "C44": {
  "note": "Exact for even sample counts; negations for odd counts and for products just below an integer."
 },
 "C45": {
  "note": "Invariant for harmless histories and for histories without array assignments; three negations."
 },
 "C46": {
  "note": "Negation for every list ending in a finite outcome; partial theorem gives the exact returned element."
 },
 "C47": {
  "note": "Full for real arithmetic."
 },
 "C75": {
  "note": "Full, given the least eigenvalue computed by numpy."
 },
 "C76": {
  "note": "Holds when the orders agree; negation otherwise."
 },
 "C48": {
  "note": "Proved for ascending grid points: marginalising in any order gives the same array, and marginalising everything gives the log evidence."
 },
 "C49": {
  "note": "All conversions invert each other over the reals. The exception is `mass_2_and_chirp_mass_to_mass_ratio` on numpy numbers, which is `nan` for mass ratios below one third."
 },
 "C50": {
  "note": "Inverse for all ordered positive masses except at one symmetric mass ratio (about 0.0194), where the denominator is zero; that value is not met for mass ratios of at least 1/40."
 },
 "C62": {
  "note": "Exact as long as the count stays below 2³¹ (the counter is a 32-bit integer); proved negation beyond that; the count is always right modulo 2³². Every increment completes under any schedule."
 },
 "C51": {
  "note": "Supplied keys always keep their values; determined masses are added with the right values (except `nan` for secondary mass and chirp mass alone with a mass ratio below one third); with only the secondary mass present the code raises although `require_add` is false."
 },
 "C52": {
  "note": "Proved for redshift and luminosity distance, for any source-frame parameters that determine the masses; with a comoving distance the conversion raises `KeyError`."
 },
 "C65": {
  "note": "Proved under the stated assumption on lalsimulation's rotation; a zero spin given by aligned and in-plane components divides by zero."
 },
 "C53": {
  "note": "Full over complex numbers; power spectral densities may be infinite outside the band."
 },
 "C54": {
  "note": "Proved for all histories without changes of duration, sampling frequency, start time or arrays, and for any history if the parameters differ from those of the cached waveform; proved negations otherwise, also for one function serving both domains and for waveforms changed in place."
 },
 "C57": {
  "note": "Proved for any state after the limits are set, and for new objects; proved negations after a change of data, for the lowered maximum frequency and for notches added in place."
 },
 "C58": {
  "note": "Full; the arm and tensor formulas of bilby_cython are parameters."
 },
 "C59": {
  "note": "Negation: the segment is never removed from data at times that are not negative."
 },
 "C66": {
  "note": "Proved for histories in which the three methods that keep the time-domain strain are used before there is one; negation otherwise."
 },
 "C67": {
  "note": "Full over the reals; that the imported rotation preserves angles is an assumption."
 },
 "C56": {
  "note": "proved: which keys an evaluation writes, restoration with geocentric reference and sky frame (jitter included), repeatability for every reference; violated after an exception, for other time references and for the time reconstruction"
 },
 "C60": {
  "note": "the cache of the hyper-prior model is keyed on the parameters only: proved for one data set; violated for other data, for keyword arguments and for the weights of a posterior"
 },
 "C77": {
  "note": "all sample sets and evidences; the number of samples per event is the minimum"
 },
 "C78": {
  "note": "identity for all data; the cached noise value is violated when data are replaced"
 },
 "C79": {
  "note": "linear, phase and norm statements for all modes and times"
 },
 "C80": {
  "note": "exact integral identity; the documented sign of the phase convention is violated by the reconstruction"
 },
 "C81": {
  "note": "exact identities for the tabulated values; interpolation between entries is not modelled; in-place rescaling violated when repeated"
 },
 "C82": {
  "note": "time grid off by one step (violated), highest frequency dropped (violated), missing factor 4/T in the reconstruction (violated); what holds is proved"
 },
 "C83": {
  "note": "mean over curves proved for all settings; reconstruction of the time ignores the curve and weighing of curves ignores the jitter (violated)"
 },
 "C55": {
  "note": "A file whose stored settings match is used and otherwise the table is rebuilt; a table given as dictionary is used without any check of its settings, and priors that differ by less than the absolute tolerance of np.allclose count as equal. Interpolation itself is not modelled."
 },
 "C61": {
  "note": "Evidence, Bayes factor and noise evidence agree for every new result. Sampling times left as numbers by a sampler are read as days, and injection parameters are converted twice for a new run; both negations are proved. Cached results keep what they have."
 },
 "C63": {
  "note": "Proved for any groups without common names and checked for six samplers. Polychord's own argument nlives is taken as an alias of nlive."
 },
 "C64": {
  "note": "Proved for any order and repetition; numbers of samples must agree, as documented. NaN rows (never equal to themselves) are outside the model."
 },
 "C84": {
  "note": "Proved for early translation (dynesty) and samplers without a default; refuted for cpnest and for resume in ultranest."
 },
 "C85": {
  "note": "Holds if every marginalised parameter has a prior; refuted when the default prior is filled in after the check."
 },
 "C86": {
  "note": "ln_prob holds for every order from a clean state; rescale holds for adjacent parameters in the order of the names; other orders, stale requests and partial draws are refuted."
 },
 "C87": {
  "note": "Law and density proved for one mode with orthonormal eigenvectors (proved for distinct eigenvalues); sigmas alone, mixture normalisation and weights, and repeated eigenvalues are refuted."
 },
 "C88": {
  "note": "Holds for one sample and for samples within the bounds; refuted for several samples of which some are outside."
 },
 "C89": {
  "note": "Densities, cdf on the range, ln_prob and the uniform law in the mass plane are proved for 0 < minimum < maximum <= 1. cdf outside the range is refuted. The law of the draws themselves is proved for an exact inverse cdf; for the interpolated one the error is bounded (mass_ratio_sampling)."
 },
 "C90": {
  "note": "Weights proved for arbitrary densities and likelihoods; that the input result is left alone is refuted."
 },
 "C91": {
  "note": "Both conditional priors give the isotropic law. For the in-plane prior the cdf is right up to the maximum and refuted above it; the aligned component itself is taken with its exact density (its table is C92)."
 },
 "C92": {
  "note": "Range proved for tilt ranges containing zero and refuted for one-sided ones; the law is refuted for two uniform priors on [0, 1], where the offset 1e-32 makes a spike. No positive statement about the law is proved."
 },
 "C93": {
  "note": "Bounds on the chirp mass proved and attained; minimum_component_mass is proved for binaries with the primary mass the larger one and refuted for mass ratios above one."
 },
 "C94": {
  "note": "Proved exactly for masses with at most one fixed and not just the two ratios present, for tilts, inclination and distances, and by count for tidal parameters; refuted for the two ratios and for two fixed masses.  The azimuth group is modelled, without a statement about it."
 },
 "C95": {
  "note": "Proved for Mpc after any sequence of changes; refuted for other units, where the table stays in Mpc."
 },
 "C96": {
  "note": "Proved with the default unit, including the way back; refuted with another unit, where the numbers in Mpc are kept."
 },
 "C97": {
  "note": "Error bound with explicit constant for the redshift prior; for distances a mean-value statement at the table points."
 },
 "C98": {
  "note": "The explicit one is used; the first claim is refuted for every sequence of calls: get_cosmology() returns DEFAULT_COSMOLOGY, which set_cosmology never writes."
 },
 "C99": {
  "note": "Normalisation of the map and the value for one sample proved; refuted: several samples all get the value of the first, and the density is per solid angle, without the cosine of the declination."
 },
 "C100": {
  "note": "Mostly refuted: pixel probabilities of rescale, half of the directions outside the pixel, distances out of bounds lost, errors for small unit-cube values, scrambled layout of several samples with distance."
 },
 "C101": {
  "note": "Proved for signals proportional to the fiducial waveform and, with bounds, for affine ratios up to an explicit term from the last bin; that term (wrong centre of the last bin) refutes exactness."
 },
 "C102": {
  "note": "Coverage, order, number of bins and a phase change below 2 epsilon proved; the bound epsilon is refuted, and epsilon above the total phase is an error."
 },
 "C103": {
  "note": "Proved as stated."
 },
 "C104": {
  "note": "Refuted: a detector whose band starts above the network's or ends at the last edge raises IndexError. Proved when all bands start together and reach beyond the fiducial waveform."
 },
 "C105": {
  "note": "Proved: derivative of tau, where 1/sqrt(-dtau/df) turns, monotonicity of the conditions up to the maximum banding frequency, no unbound local, within the tolerance of a frequency that meets the conditions, order and end of the bands. Violated: the frequency returned may itself miss the conditions, although the docstring promises them."
 },
 "C106": {
  "note": "For bands that do not overlap with more than their neighbour."
 },
 "C107": {
  "note": "Every band has at least two banded frequencies; a band with only one does not contribute (violated)."
 },
 "C108": {
  "note": "Real part for any number of bands, the complex number for one band."
 },
 "C110": {
  "note": "The other theorems hold in full. calib_factor_partial: if all node values are in the dictionary passed (and every name containing the prefix begins with it), the factor is that of these values, whatever was passed before.; calib_stale_violated: the same call, without any calibration parameters, raises an exception on a new object and returns the factor of the earlier parameters after another call."
 },
 "C111": {
  "note": "The other theorems hold in full. precomputed_curve_partial: an index within the number of curves selects that curve (rounded down), for the frequencies of the curves only.; precomputed_negative_violated: a negative index is not an error but counts from the last curve.; precomputed_missing_violated: a missing index raises a `TypeError`, not the `KeyError` that the code has for this case."
 },
 "C112": {
  "note": "The other theorems hold in full. calib_file_params_partial: read from the first curve on, every curve has its own parameters.; calib_file_params_violated: read from another curve on, the parameters are those of other curves: the first curve returned has number 1, the first parameters number 0.; lookup_rebuild_partial: building the lookup table again from the file that the first time wrote gives the same curves and parameters, if all curves from the first on are asked for.; lookup_rebuild_violated: with a starting index the table built again from the file has fewer curves: two at first, one afterwards.; lookup_precomputed_violated: precomputed curves are used once: after building the table the model is gone and, as no file was written, building it a second time fails, with or without priors.; lookup_model_partial: with a band that has the range of the nodes, each curve of a new table is the factor of the detector's calibration model for the parameters of the same row.; lookup_model_violated: otherwise the curves belong to other nodes: for a model with nodes between 1 and 1000 and a band between 1 and 10, the factor at 10 is 2 in the model and 4 in the table, for the same parameters."
 },
 "C114": {
  "note": "The other theorems hold in full. psd_query_partial: in any state, after a density has been assigned or loaded, and after any further queries, assignments of the frequency array and changes of unrelated arrays, a query gives the interpolation of that density at the frequencies asked for, and the amplitude density is its square root.; psd_is_asd_squared_partial: after any history of assignments of arrays that are not negative, of files, queries and in-place changes, the power density of the object is the square of its amplitude density.; psd_list_violated: fails for a Python list: the assignment raises an error, but the power density is already replaced and the amplitude density is not.; psd_alias_violated: fails after an in-place change of the frequency array of the last query: the array is compared with itself and the old values are returned.; psd_returned_violated: fails after an in-place change of the array returned: it is the cached one.; psd_frequency_violated: fails after an assignment of the frequency array alone: at its own frequencies the object does not have its own density."
 },
 "C115": {
  "note": "The other theorems hold in full. simulated_data_density_partial: the likelihood is the probability density of simulated data: for every signal, the components in the band of the signal plus a noise realisation in each detector have, with respect to Lebesgue measure, the density `exp(log likelihood)` up to the constant `∏ √(2π T S / 4)`.; noise_nyquist_violated: fails at the Nyquist frequency for an even number of samples: the noise is always zero there, whatever the density.; periodogram_violated: fails for the spectrum of simulated noise: the mean of `psd_from_freq_series` of a noise realisation is twice the density."
 },
 "C116": {
  "note": "The other theorems hold in full. inject_erases_violated: fails outside the band: an injection, even of nothing, sets the stored data outside the band to zero, and they stay zero when the band is widened afterwards."
 },
 "C117": {
  "note": "The other theorems hold in full. whitened_variance_violated: fails for the whitened time series: every sample of the whitened noise of an even number `N` of samples has the variance `((N + 2) / N) ^ 2` and not one, whatever the band."
 },
 "C118": {
  "note": "The other theorems hold in full. network_consistent_partial: an `append`, `extend` or `insert` that raises nothing leaves a consistent list. (Missing: the other operations of `list`, and those that raise.); rejected_stays_violated: fails after an exception: the refused detector has been added all the same, and every later append raises.; start_time_violated: fails for GPS times: start times that differ by one part in a thousand million, about a second, are accepted.; order_violated: fails for the order: the same three detectors are accepted or refused depending on which one comes first, and removing a detector from an accepted list can leave a refused one.; unchecked_violated: fails for `+=` and item assignment: they check nothing.; network_inject_violated: fails for a refused injection: the detectors before the first one in which the signal does not fit have already been changed."
 },
 "C119": {
  "note": "The other theorems hold in full. triangle_null_stream_partial: the null stream: in a common plane the tensors of the three detectors add up to zero, so the sum of the three outputs contains no signal; triangle_vertex_violated: fails for the vertices: the arms of the first detector end at the other vertices of the triangle, its second arm (turned by sixty degrees) at the second vertex, since that one has its first arm in the opposite direction; triangle_side_violated: fails for the distance: the distance in the east-west direction of the first two vertices (radius times cosine of the latitude times difference of longitude) is at most the projection of the arm times the cosine of the latitude, hence too short away from the equator: the convergence of the meridians is left out."
 },
 "C120": {
  "note": "Proved: for every mask the value is the inner product with the phases of consecutive bins, so exact for an unbroken band; quadratic sums exact for every mask; the check of the parameters implies that every frequency is in the basis. Refuted: notches, and two basis files with different lowest frequencies. The interpolation of the waveform is a hypothesis."
 },
 "C121": {
  "note": "Proved: when a time is accepted, exact at samples and for cubics, error at most `(ωΔ)⁴/6` per wave (Taylor bound), hence a bound for the inner product; both ways agree inside. Refuted: with time marginalisation times near the start take the last samples."
 },
 "C122": {
  "note": "Proved: cover when the segment is long enough, power of two above the bins, cells fill the prior, average over the jitter is the integral over the prior (Lebesgue integral). Refuted: clipping at the start of the segment; only the last detector's noise counts. `simpson` is a parameter."
 },
 "C123": {
  "note": "Proved: the first basis that contains the parameters, none is missed by the selection, cache correct without exceptions, nodes recovered. Refuted: gaps pass the check, parameters with other names use the first basis, wrong basis after an exception."
 },
 "C124": {
  "note": "Proved: idempotent selection, hdf5 round trip; npz refused for several bases. Refuted: npz loses ranges and nodes; a file without a matching basis is accepted."
 },
 "C125": {
  "note": "Proved: lower bounds of the burn-in, rolling mean reaches the bulk and the index is the first such, sources and lower bound of the autocorrelation time, bounds kept by every sequence of queries, rows of `samples`, count at most the rows. Refuted: `thin` reads the autocorrelation time twice; between the readings it may become infinite, and the conversion to an integer raises."
 },
 "C126": {
  "note": "Proved: when the run stops, the zero-temperature chains return at least the requested number of rows (without rejection sampling of tempered chains). Partial: a single chain with bounded burn-in and autocorrelation time stops at a message after enough steps. Refuted: without a message the count is never refreshed; with `stop_after_convergence` a chain is frozen on the cached count and may stay below the target for ever."
 },
 "C127": {
  "note": "Proved: unbiased ratio for chains that are independent between temperatures, exactness for exact means, error of the trapezium rule by Jensen's inequality, rows. Refuted: the ladder ends above `β = 0`, which is not corrected; the error estimate of an even number of temperatures covers another range; the uncertainty does not decrease with the number of ensembles."
 },
 "C128": {
  "note": "Proved: given values are used, others are drawn. Partial: maximum when the prior is positive at all tried points. Refuted: points of prior zero are preferred."
 },
 "C129": {
  "note": "Proved: kept rows, law proportional to the posterior (for a fixed bound of the likelihood), all rows at `β = 1`. Refuted: with `use_ratio` and shared memory the chain changes; ensembles at zero temperature are counted twice."
 },
 "C130": {
  "note": "Proved: geometric ladder from 1 to `1 / Tmax`, from the signal-to-noise ratio when `SNR² > ndim`. Refuted: colder ladder for small ratios; given ladders are checked for length only."
 },
 "C131": {
  "note": "Proved: values, rows, resumption, repetition, independence of processes. Refuted: another block size on resumption raises; the file is recognised by the samples only; parameters that the samples lack are those of the last evaluation."
 },
 "C132": {
  "note": "Proved: by position for log likelihoods and ratios. Partial: sky-frame parameters for labels `0, 1, …`. Refuted: other labels (values of other rows or NaN), empty frames."
 },
 "C133": {
  "note": "Proved: kept parameters, fixed parameters, failing groups, subset. Refuted: supplied waveform settings are replaced by the defaults."
 },
 "C134": {
  "note": "Proved: detailed balance from the claim; Gaussian, adaptive and fixed jumps with all boundaries, draws from densities, stretch moves in other than one dimension. Partial: differential evolution and stored Fisher matrix without reflective boundaries. Refuted: differential evolution with a reflective boundary; the Fisher step that computes the matrix; the stretch move of one periodic parameter."
 },
 "C135": {
  "note": "Proved: rule, floor, drift, decreasing rate. Refuted: the fallback never adapts."
 },
 "C136": {
  "note": "Proved: use of the density, effects of a fit, waiting, verification of the mixture model. Refuted: one parameter (never trained); the kernel estimate (transposed array)."
 },
 "C137": {
  "note": "Proved: reversals on their ranges and for a periodic phase in any range of length 2π. Partial: correlated jumps without boundaries. Refuted: phase with negative values and no boundary; correlated jumps with periodic boundaries."
 },
 "C138": {
  "note": "Proved: what is removed. Refuted: `noAG` removes the Fisher matrix proposal too."
 },
 "C139": {
  "note": "Proved: normal steps, sky steps and flat draws with all boundaries; the half-period jump in phase and polarisation when both are periodic. Partial: ensemble walk, differential evolution and eigenvector steps without reflective boundaries; stretch without boundaries. Refuted: stretch with boundaries; half-period jump without them; the cycle, whose own `log_J` never changes."
 },
 "C140": {
  "note": "Proved: everything that looks up `random.rng` when it draws. Refuted: the default generator of the ensemble walk; the jumps that use python's `random`; seeds given under the sampler's own name. Shown besides: dynesty and bilby then draw the same numbers."
 },
 "C141": {
  "note": "Proved: the conditions of stopping; the number of samples; what is discarded; the statistic used is at least that of Gelman and Rubin. Refuted: with an ignored parameter the sampler never stops; the window of the smoothing is not the nearest odd integer; the statistic is not exactly theirs."
 },
 "C143": {
  "note": "Proved: the range of the initial positions; wrapping of stored positions. Refuted: the loop never gives up; points beyond the end of a periodic parameter are always rejected, since the wrapping of the evaluator is never called."
 },
 "C144": {
  "note": "Proved: all parts about quantiles; the interval contains the median, is monotone in the level and contains more than `level * m - 1` of `m + 1` samples. Refuted: it contains the given fraction (not for two samples); errors relative to the mean have the right sign; the documented `lower` and `upper` of the error bar are set."
 },
 "C145": {
  "note": "Proved: the columns; prior values for independent priors; weights for a new prior. Refuted: prior values of conditional priors; levels of integer injections; the density estimate after the posterior is replaced; posterior probabilities of several samples; weights when no parameter is shared."
 },
 "C146": {
  "note": "Proved: one parameter; units; dimensionality of samples, its independence of the normalisation, and its value for Gaussians with exact averages. Refuted: the posterior volume of two correlated parameters; the prior volume with a fixed parameter."
 },
 "C147": {
  "note": "Proved: all parts. Refuted: exactness for small absolute steps, for which every derivative is zero."
 },
 "C148": {
  "note": "Proved: all parts. Refuted: parameters that can be given by keyword only are not found."
 },
 "C149": {
  "note": "Proved: the value of the log likelihood for any history, the ratio option, the check of draws, the number and finiteness of initial points, the pools. Refuted: random draws that fail the check are used; a pool of the user is closed as well."
 },
 "C150": {
  "note": "Proved: the comparison of keys and likelihood, the options, the order of the parameters. Refuted: the priors are not compared; a likelihood without a description raises an error."
 },
 "C151": {
  "note": "Proved: files over any number of sessions, total sampling time. Refuted: files that the sampler removes come back; the callback of ultranest copies nothing; the time that pymultinest leaves in the output directory is outdated."
 },
 "C152": {
  "note": "Proved: wrapped flags, rows of nested samples, volumes, masked pairs, the law of the move of dnest4. Refuted: the resume option of ultranest makes no difference; moves of dnest4 do not keep a prior that is not uniform."
 },
 "C153": {
  "note": "Proved: members and order of the result, alignment for kombine, number of steps after interruptions. Refuted: alignment for emcee with several walkers and steps; remaining samples for long autocorrelation times; walkers of kombine; resuming kombine after automatic burn-in."
 },
 "C154": {
  "note": "Proved: weights, keywords, the maps for independent priors. Refuted: the maps for conditional priors."
 },
 "C155": {
  "note": "Proved: checks, deformabilities, reparameterisations, Love relations, rows of arrays, the cases of the dictionary. Refuted: equal masses with uncertainties; a single sample with the automatic scatter; `lambda_2` alone; `lambda_symmetric` without the mass ratio."
 },
 "C156": {
  "note": "Proved: Fourier transforms and norms of both polarisations, scaling with distance, linearity. Refuted: the unit of the distance of `supernova` (megaparsecs, documented as kiloparsecs)."
 },
 "C157": {
  "note": "Proved: band, padding, epoch, errors, start frequency, names of keywords, nodes. Refuted: grids that do not start at zero; default reference frequency of the reduced-order quadratures."
 },
 "C158": {
  "note": "Proved: equality of all runs, states written, times of writes, sampling time, rejection sampling, effective number, options. Refuted: user limits with checkpoints; signals before the start; days in the run statistics; the third method of printing."
 },
 "C159": {
  "note": "Proved: fetching, caching, order of channels, rates, intervals, conversions, the phase. Refuted: cached data with another buffer or options; writing without a cache; fetched data lost when not writable; buffers and detectors of frames; data after a trigger."
 },
 "C160": {
  "note": "Proved: densities of all mapped priors, bounds, starting values, evaluation of the likelihood, step methods and options. Refuted: bounds of the beta prior; power law below minus one; the Pareto form; multivariate Gaussians; integer fixed parameters; unknown standard deviations; step options of NUTS."
 },
 "C161": {
  "note": "Proved: reading back, burn-in without thinning, defaults, distribution and renaming of options, initial positions. Refuted: burn-in of PTMCMC with thinning; positions in one dimension; the option `start` of zeus."
 },
 "C162": {
  "note": "Proved: pseudo-enthalpies, extrapolation, rebuilding, differences, adiabatic index, sampled range, stitching to the low density table, units. Refuted: the monotonicity check never fails; the first pseudo-enthalpy; a speed of sound slightly above that of light; names of some files; sampled ranges and stitching without overlap; plots of the Love number."
 },
 "C163": {
  "note": "Proved: equations, expansion at the centre to second order, Love number and its limit, families, maximum mass, interpolation in mass. Refuted: equal masses at the end of a family; the parabola when the second mass is already smaller."
 },
 "C164": {
  "note": "Proved: soundness of the comparison, interval of times, notches, filtering before the transformation, times of exported series, frequencies for an even number of samples. Refuted: notches are not compared; reading the frequency domain changes the comparison; made notch lists are rejected; filtering after the transformation leaves the domains in disagreement; the spacing for an odd number of samples."
 },
 "C165": {
  "note": "Proved: safe durations, the place of the signal, the optimal signal-to-noise ratio by the shift theorem, durations to half of a tenth of a second, precedence, segments, frames, channels. Refuted: doubled powers of two; short data accepted; arrival outside the data wraps around; the matched-filter value; rounding and missing masses in the check; short simulated segments; frames exactly covering; colons in names."
 },
 "C166": {
  "note": "Proved: reading of lines, white space, shapes, errors, precedence of arrays and files, warnings, comparison of new objects. Refuted: blank and indented comment lines; the error for an unknown shape; the comparison after a change of the frequency array."
 },
 "C167": {
  "note": "Proved: the equality of the basic likelihood with the other, its maximum, sums over detectors, the priors of the likelihood and of the user for all combinations, defaults, conversion, errors, reference frames. Refuted: values of detectors with phase marginalisation and for failed waveforms; a second likelihood from the same priors; the announced default for the distance; the promised error of the generator; frames of detectors with long names."
 },
 "C168": {
  "note": "Proved: options, the default offset and taper for every arrival, weights restored in every order with the highest mode first, fiducial values, the cut, dictionaries and lists of parameters, consistency after the search. Refuted: priors ending near the end of the data; the standard values; weights in other orders; the error for failed waveforms; the search with time jitter; the likelihood not decreasing."
 },
 "C169": {
  "note": "Proved: exactly when the cycle for gravitational waves can be built, coverage of sampled parameters, weights, lengths, removal by name, phases, acceptance ratio, validation. Refuted: masses with only the second spin, fixed calibration or spins in the plane, calibration alone, names with `recalib` only, removal of everything, each proposal in the drawn cycle, a fixed phase with sampled `delta_phase`, a fixed inclination, a Boolean from the validation, signals missed by samples."
 },
 "C170": {
  "note": "Proved: points, the value of every entry, exponentials, names and contents of files. Refuted: fixed parameters, points in Python lists, the label of a grid made without saving or read from a file, the older file after a failed save."
 },
 "C171": {
  "note": "Proved: the power spectrum times the truncated correlation is exact for padded samples, hence the squared norm of every band; exactness for short signals; independence of earlier evaluations; slices and waveform frequencies. Refuted: a single band that reaches beyond the Nyquist frequency."
 },
 "C172": {
  "note": "Proved: displacements, reversibility and symmetry over pairs, law of the factor, radial law and isotropy of volumetric proposals, weights of a dictionary, flags for rebuilding. Refuted: the documented default of `scale`; sets and strings of proposals."
 },
 "C173": {
  "note": "Proved: monotone curves, binomial law, coverage of the bands, deviation for finitely many samples, arguments, labels. Refuted: that the curve reaches one at the end of the range."
 },
 "C174": {
  "note": "Proved: equality with the usual products for band-limited series with whole numbers of samples, bins. Refuted: the product at the highest frequency."
 },
 "C175": {
  "note": "Proved: formats, transposition, merged band, numbers, nodes, law of the times. Refuted: equality of an array and the file with it, a file of the name hdf5, nodes given twice."
 },
 "C176": {
  "note": "Proved: running sampler untouched, restart, error for other tempering, age and distance of check points, chains and evaluations. Refuted: other tempering without resume, other proposals or evidence on a restart, seconds of runs longer than a day."
 },
 "C177": {
  "note": "Proved: samples, frequencies, times, band, factor between waveform and injection, pairing of nodes. Refuted: about 4000 frequencies, mean inside the band, injection on the waveform, calibration figure for skewed posteriors, its level."
 },
 "C178": {
  "note": "Proved: the arguments of corner plots, labels, true values, priors, walkers of several parameters, maximum for rows numbered in order. Refuted: injection with a list of parameters, values turned off with a dictionary, list of values alone, values of one parameter, truth=True, priors of results without them, walkers of one parameter, maximum for other indices, labels after priors are replaced."
 },
 "C179": {
  "note": "Proved: values after updates for celerite, any order for george, set_parameters, mean models. Refuted: other order of the dictionary for celerite, unknown names for george, package of mean models for george."
 },
 "C180": {
  "note": "Proved: means, bound between the ends of the ladder, constant and linear means, which temperatures are used. Refuted: ladders that do not reach zero, one temperature, infinite means."
 },
 "C181": {
  "note": "Proved: listed names are distinct and found, contained names are those found, order of plug-ins, checks, size of the pool, values of the fake sampler. Refuted: names with the prefix inside or capital letters, fake sampler with files without likelihoods, likelihoods of its rows, its arguments."
 },
 "C182": {
  "note": "Proved: values and errors at chosen frequencies, waveforms at the nodes of quadratures, settings in the dictionary, increase over the first seven points, prior of the check, identity map. Refuted: caught errors with quadratures, dictionary of the caller, increase at the eighth point."
 },
 "C183": {
  "note": "Proved: bounds, symmetry and extremes of the divergence, maximum over parameters, first multiple of ten below the threshold, counters, fallback, number of proposals between trainings, alternating couplings. Refuted: unit of bits, range of the comparison, draws far above the chain, flow that did not converge, trainings after exceptions, threshold for short chains."
 },
 "C184": {
  "note": "Proved: choice of the file, lenient and strict lists, name of the pickled file, construction, bounds of the combined error. Refuted: unknown levels, directories with a dot, files written in part, default of the constructor, sets of results, level of the list, error of equal runs, error with a run without one."
 },
 "C185": {
  "note": "Proved: round trip of the attributes with priors, in both formats, what the constructor stores, labels, which attributes raise and are saved, class on reading, errors of reading, lines of the summary, columns of the written posterior. Refuted: autocorrelation time, labels without priors, results without posterior in hdf5, classes that have left their module, empty summary, columns named like a modulus."
 },
 "C186": {
  "note": "Proved: parameters of samples, assignment and copy, lowest random row, infinite and finite autocorrelation times, samplers put back in any order, columns, partition by temperature, counts and ratios, arrays of the thermodynamic integral, method of the evidence, rows and error of the bootstrap. Refuted: new entries of samples, equality of samples, first and last row in the bootstrap."
 },
 "C187": {
  "note": "Proved: options of emcee before and after version 3, of kombine with its burn-in, of zeus and ptemcee; data frames, arrays and dictionaries of starting points; evaluation and wrapping of ptemcee. Refuted: arrays of starting points for one parameter, checking of starting points."
 },
 "C188": {
  "note": "Proved: equality of priors with reflexivity and symmetry, of interpolated priors, joint distributions, geometries with what can be read from them, calibration models, detectors. Refuted: arrays with not-a-number, names of interpolated priors, symmetry and exactness for joint distributions and their use, spline calibration."
 },
 "C189": {
  "note": "Proved: what each step averages over, joint distribution for every combination of marginalisations, values kept and changed. Refuted: sky position after drawing the time alone."
 },
 "C190": {
  "note": "Proved: handlers during and after, level and handlers after any sequence of calls, errors of commands, longest autocorrelation time, base names. Refuted: handlers after exceptions or without SIGALRM, second label, terminal handler beside a file, silent failure, nan."
 },
 "C191": {
  "note": "Proved: round trips, order, entries of the source frame, consistency of masses, idempotence. Refuted: distance 0, redshift alone, redshift replaced, error for distances out of reach."
 },
 "C192": {
  "note": "Proved: what is read is what likelihood and detectors wrote, missing entries, order of detectors, last injection. Refuted: detectors of one name, detectors without injection, no meta data, sampler objects."
 },
 "C193": {
  "note": "Proved: values kept, directories, no option twice, what each sampler gets, seeds under general names. Refuted: directory of the user, second run and stored directory of ultranest, options dropped by ultranest, PolyChord, DNest4, nestle and nessai, seeds under the sampler's name."
 },
 "C194": {
  "note": "Proved: decoding is idempotent, keeps plain data, and agrees with reading for shallow data; cosmologies, quantities, modules, order of sources. Refuted: nested objects, lists, names and foreign classes of cosmologies, failing pip."
 },
 "C195": {
  "note": "Proved: reading back, other files unchanged, names distinct, densities, formats. Refuted: directory and label of detectors, triangular detectors, directory of data, labels, window counted twice, formats inside names."
 },
 "C196": {
  "note": "Proved: meaning of the value, points of samplers for binaries, draws, other conversions without fixed parameters, agreement of implementations. Refuted: conversions of the user with fixed parameters, unknown quantities."
 },
 "C197": {
  "note": "Proved: entries kept, only defaults added, no excess in sets, completeness, order for plain dictionaries, rows of arrays. Refuted: order for binaries, fixed parameters, constraints among the keys."
 },
 "C199": {
  "note": "Proved: differential evolution, volumetric proposals, walks of any length. Refuted: two reflective parameters."
 },
 "C200": {
  "note": "Proved: labels of priors, round trips, labels of results, figures and legends. Refuted: priors without name, renamed priors, dependence on imports, priors assigned to results later."
 },
 "C201": {
  "note": "Proved: equal frequencies in use, what is accepted and refused. Refuted: arguments left to their defaults."
 },
 "C203": {
  "note": "Proved: estimates as ratios, when they come, bounds of the factor. Refuted: impossible constraints, chunks of one row, scattered estimates."
 },
 "C204": {
  "note": "Proved: law of the set of kept rows, expectations, the reweighted law against the largest possible weight. Refuted: the reweighted law for the largest weight of the rows at hand."
 },
 "C205": {
  "note": "Proved: the expected evidence, unbiasedness. Refuted: models with parameters that the old one does not allow."
 },
 "C206": {
  "note": "Proved: the mean of the exponential. Refuted: the mean of the logarithm."
 },
 "C207": {
  "note": "Proved: expected sums and numbers of rows, weighted means for runs of equal length. Refuted: weighted means for runs of different lengths."
 },
 "C208": {
  "note": "Proved: enough samples, steps without stop_after_convergence. Refuted: restarts with stop_after_convergence."
 },
 "C209": {
  "note": "Proved: values of the options, of the chains at the start and after a restart, number of processes. Refuted: threads and its like, target_nsamples."
 }
}