# Formal model of lscsoft/bilby in Lean 4: design

## 1. Layout

* `properties.jsonl` – the properties, in terms of the public API.
* `lean/Verif/Spec/*` – small specifications, independent of the model.
* `lean/Verif/Model/*` – the model of the code, function by function; every
  definition cites file and lines in `/repo`.
* `lean/Verif/Lemmas/*` – helper lemmas.
* `lean/Verif/Props/*` – the property theorems, each followed by an `example`
  showing a concrete non-trivial case that meets its hypotheses.
* `MANIFEST.json` – property → theorem names and status.
* `seeded/LOG.jsonl` – record of deliberately wrong programs and which theorems
  caught them.

## 2. Trusted base

* Lean 4.33.0's kernel, and the axioms `propext`, `Classical.choice`,
  `Quot.sound` (Mathlib's reals, measure theory and calculus use all three).
  No other axiom, no `sorry`, no `native_decide`/`bv_decide`.
* Fidelity of the reading of `/repo`: the code is not run. Each model definition
  carries the citation it was transcribed from.
* **Floating point is not modelled.** Every Python `float` is a real number
  (or an extended real where the code returns `±inf`). `nan` is modelled
  explicitly only where the code's control flow depends on it. Theorems are
  therefore about the mathematical function the code denotes.
* **External libraries** (numpy, scipy, pandas, h5py, json, dynesty, lal, OS) are
  modelled by the mathematical function they are documented to compute
  (`np.log`, `np.trapz`, `interp1d`, `erf`, …) or are explicit parameters of the
  model; assumed behaviour of a parameter is an explicit theorem hypothesis.
  `scipy.special.hyp2f1` is Mathlib's hypergeometric series (used for |z| ≤ 1). The
  interpolated inverse cdf of the mass-ratio prior is a parameter: one theorem bounds the
  effect of its error, another (`_partial`) takes it to be exact. An astropy cosmology is a
  parameter (distances, volume element, and `z_at_value` as exact inverse on attained
  distances), and so is a healpy pixelisation; `np.gradient` is its formula for
  equidistant points; Python's `round` is taken to round halves up;
  `np.fft.rfft`/`irfft` are the discrete Fourier sums of their documentation.
* **Randomness** is an explicit argument (a stream of uniform draws), so the
  theorems hold for every stream; laws of random variables are stated with
  Lebesgue measure.
* **Arrays**: element-wise numpy code is modelled by its scalar function, and
  reductions by functions on lists.
* **Exceptions** are values (`Except`/`Option`).
* **Unbounded loops** are modelled with a fuel argument or as a relation; the
  theorems speak about every run that returns.

When the code violates a property, the negation is proved with a concrete
witness (theorem name suffix `_violated`) and the part that does hold is kept as
`_partial`. Section 4 lists those disagreements.

## 3. Plan per property

| id | what is modelled, and how it is proved |
|----|----|
| C01 | rescale/cdf of each class over ℝ; algebra and `exp/log/arcsin/arccos/arctan/rpow` inverse laws; Gaussian family with `erf` defined as an integral and `erfinv` as its inverse |
| C02 | prob/cdf over ℝ; fundamental theorem of calculus, improper integrals. Cosine/Sine with custom bounds: negation |
| C03 | ln_prob into `EReal`, compared with `ENNReal.log (ofReal prob)`. SymmetricLogUniform: negation outside support |
| C04 | from the Galois connection `rescale u ≤ x ↔ u ≤ cdf x` and Lebesgue measure on [0,1] |
| C05 | from the cdf formulas |
| C06 | SlabSpike over an abstract slab satisfying the inverse-CDF law |
| C07 | Interped as lists of knots; induction over the list; setter history as a state machine |
| C08 | Categorical with exact reals and the 1e-15 offset; measure of the preimages |
| C09 | association list of prior kinds; list induction |
| C10 | accept/reject loop over a stream of batches with fuel |
| C11 | `prob`/`ln_prob` over lists of per-key densities, ratio a parameter |
| C12 | state machine with cache; negation by witness; partial for edit-free histories |
| C13 | `_resolve_conditions` on lists of keys with dependency function; soundness by invariant, completeness by well-founded argument on orders |
| C14 | rescale with index cache as a state machine; negation for edited dictionaries, partial otherwise |
| C15 | least_recently_sampled store as state; non-interference; negation for incomplete samples |
| C16 | DirichletElement chain; induction on the order |
| C17 | character-level bracket-depth splitter; induction on balanced strings |
| C18 | `reflect`, periodic map, `apply_boundaries_` over ℝ with floor-mod |
| C19 | `_move_reflecting_keys`/`_move_periodic_keys`; negation at delta = r |
| C20 | chain as block-grown array; refinement to a list |
| C21 | `step` with proposal/uniform streams as arguments; invariant by induction |
| C22, C23 | acceptance probability `min 1 (exp …)`; algebra |
| C24 | two-chain state machine; negation by witness |
| C25 | `adapt_temperatures` on lists; monotone part proved, negation for the fixed hottest end |
| C26 | cycle counter; modular arithmetic |
| C27 | guard modelled with the Python identity test; negation |
| C28 | stretch factor; law by measure of preimage |
| C29 | the three walks as folds over proposal streams |
| C69 | update of the number of walks as a recurrence; invariant and limit |
| C70 | live-point selection as a list; negation for the discarded deletion |
| C30 | file-system state machine with crash points after each primitive action |
| C31 | file-system state machine |
| C71 | the two interleaved writes on the file-system model, any split point; negation for the shared temporary name |
| C72 | the loop over `sampler_kwargs` as a fold on the shared dictionary; negation |
| C32, C33 | deep embedding of Python values and JSON/HDF5 trees; structural induction; negations for lossy types |
| C34 | string functions |
| C35 | list filter |
| C36 | resume arrays with nan markers; negation by witness |
| C37, C38 | logsumexp algebra |
| C39 | weighted fraction; list induction |
| C40 | store with shared parameter reference; induction over components |
| C41 | per-datum densities; integrals and sums |
| C42 | logsumexp algebra over lists |
| C43 | Cauchy–Schwarz |
| C44 | series as functions of index; rounding of duration·sampling_frequency |
| C45 | state machine; negation by witness, invariant for restricted histories |
| C46 | fold over optimiser outcomes; negation |
| C47 | polynomial identity |
| C48 | finite sums over product index sets |
| C49, C50 | real algebra with `rpow`, Cardano's formula |
| C51, C52 | dictionaries as partial maps; branch-by-branch model; negation by witness |
| C53 | complex finite sums |
| C54 | generator state machine with cache; negation by witness |
| C55 | decision logic with Python truthiness of tuples; negation |
| C56 | store passing; waveform outcome a parameter |
| C57, C58 | cache state machines (Model/StrainData, Model/Geometry); C57 negations, C58 invariant and ellipsoid identity |
| C59 | chained comparison modelled as Python evaluates it; negation |
| C60 | cache state machine; negation |
| C61 | flag logic; unit conversion; negation for the sampling-time unit and double conversion |
| C62 | interleaving semantics of lock-protected read/write |
| C63 | dictionaries as association lists |
| C64 | lists of samples |
| C65 | trigonometric identities |
| C66 | state machine; negation |
| C67 | angles over ℝ, modular arithmetic; the rotation of bilby_cython is a parameter |
| C73 | heap of result objects; which cells a call writes |
| C74 | algebra on the returned evidences; negation for reweight |
| C75 | spectral theorem for real symmetric matrices |
| C76 | dictionaries as association lists; negation by witness |
| C77 | finite sums over events and samples |
| C78, C79 | masked complex sums over detectors; cache state for the noise value |
| C80 | interval integral of `exp(a cos x)`; the Bessel function is defined by its integral |
| C81 | weighted `logsumexp` in `EReal`; rescaling algebra |
| C82 | discrete Fourier sum as inner product with delayed signals; negations by witness |
| C83 | mean over curves; evaluation points of the parameter store |
| C84 | flow of `npool` through constructor, translation and defaults; ultranest `resume` |
| C85 | check before the default priors are filled in |
| C86 | state machine of the shared object; sums and rescaling for every order; stale requests and partial draws refuted |
| C87 | affine image of normal quantiles, change of variables in R^n; mixtures, repeated eigenvalues refuted |
| C88 | loop over the parameters with early exit; one sample, several samples |
| C89 | derivative of the hypergeometric primitive from its series; change of variables in the mass plane |
| C90 | weighted measures; mutation of the input refuted |
| C91 | change of variables in the spin plane; conditional densities |
| C92 | range as a set of products; bounds on the trapezoid table refute the law |
| C93 | monotonicity of chirp mass and secondary mass; attained at corners |
| C94 | injectivity of every pair of mass parameters; counting over finite sets; negations |
| C95 | invariant over histories of limit changes; other units refuted |
| C96 | limit invariant of C95; other units refuted |
| C97 | interpolation and trapezoid error bounds; mean value theorem for np.gradient |
| C98 | state machine; negation by induction over calls |
| C99 | finite sums; iterated integral over the sphere; negations |
| C100 | Lebesgue measure of preimages; list layout; negations |
| C101 | sums over bins; exact remainder of the last bin; quadratic remainder bound |
| C102 | first-index search and destuttering of a monotone list; monotone phase |
| C103 | np.repeat as counting of edges; affine interpolation |
| C104 | index sets of masks; negation for differing bands |
| C105 | real calculus for tau and its derivative, monotonicity of the two conditions, induction over the bisection and over the loop of bands |
| C106 | closed form of the window, telescoping sum |
| C107 | interpolation weights sum to the affine function, exchange of sums, partition of unity |
| C108 | discrete Fourier inversion for real transforms, shortening of the time series |
| C109 | spline system as a matrix; its kernel is zero because a largest inner entry vanishes; the pieces form the unique not-a-knot spline (Spec/Spline.lean) |
| C110 | dictionary updates by prefix; polar form of the factor; negation for a later call with missing parameters |
| C111 | list indexing with Python's negative indices; negations |
| C112 | arrays as lists, interpolation as a parameter exact at increasing knots; negations for starting index, second build, precomputed curves and other band |
| C113 | names as character lists, injectivity of decimal numbers |
| C114 | interpolation by recursion on the list; the object and the arrays it refers to as a state with a memory, invariant over histories |
| C115 | standard normal numbers as an argument; law of their affine images as a product of Gaussian measures, density compared with the likelihood |
| C116 | the read-modify-write of the strain property on the strain object of C66; masks are idempotent |
| C117 | algebra for the inner product; law of a linear form of normal numbers for the time series |
| C118 | the list of compared attributes under the operations of `list`; the relation of `math.isclose` |
| C119 | positions in degrees and azimuths; trigonometric identities, `arctan x ≤ x` |
| C120 | Linear and quadratic weights of bases without multi-banding as list and array operations (`intersect1d`, assignment into the input of the inverse transform, `ifft`). Proved: for every mask the value is the inner product with the phases of consecutive bins, so exact for an unbroken band; quadratic sums exact for every mask; the check of the parameters implies that every frequency is in the basis. Refuted: notches, and two basis files with different lowest frequencies. The interpolation of the waveform is a hypothesis. |
| C121 | `_interp_five_samples`, `_closest_time_indices`, `_calculate_d_inner_h_array` with numpy's negative indices. Proved: when a time is accepted, exact at samples and for cubics, error at most `(ωΔ)⁴/6` per wave (Taylor bound), hence a bound for the inner product; both ways agree inside. Refuted: with time marginalisation times near the start take the last samples. |
| C122 | Start and end index of the samples, power-of-two number, midpoint cells of the time marginalisation (with the time marginalised likelihood of C82). Proved: cover when the segment is long enough, power of two above the bins, cells fill the prior, average over the jitter is the integral over the prior (Lebesgue integral). Refuted: clipping at the start of the segment; only the last detector's noise counts. `simpson` is a parameter. |
| C123 | Selection by prior, check, choice and cache as a state machine, `np.unique` by sort and index. Proved: the first basis that contains the parameters, none is missed by the selection, cache correct without exceptions, nodes recovered. Refuted: gaps pass the check, parameters with other names use the first basis, wrong basis after an exception. |
| C124 | Weights of one kind with optional ranges and nodes; reading selects again. Proved: idempotent selection, hdf5 round trip; npz refused for several bases. Refuted: npz loses ranges and nodes; a file without a matching basis is accepted. |
| C125 | `Chain` as a state machine with its caches (`max_tau_dict`, `_last_minimum_index`, minimum indices of proposals and adaptation); the autocorrelation estimate per parameter and starting index is a parameter. Proved: lower bounds of the burn-in, rolling mean reaches the bulk and the index is the first such, sources and lower bound of the autocorrelation time, bounds kept by every sequence of queries, rows of `samples`, count at most the rows. Refuted: `thin` reads the autocorrelation time twice; between the readings it may become infinite, and the conversion to an integer raises. |
| C126 | The checks of `run_sampler` with primary and further chains, `_nsamples_dict` and the cached convergence. Proved: when the run stops, the zero-temperature chains return at least the requested number of rows (without rejection sampling of tempered chains). Partial: a single chain with bounded burn-in and autocorrelation time stops at a message after enough steps. Refuted: without a message the count is never refreshed; with `stop_after_convergence` a chain is frozen on the cached count and may stay below the target for ever. |
| C127 | Stepping stone, trapezium rule with its error, average over ensembles and choice of rows, as real sums; samples follow measures with the tempered posterior (`Measure.tilted`) as marginals. Proved: unbiased ratio for chains that are independent between temperatures, exactness for exact means, error of the trapezium rule by Jensen's inequality, rows. Refuted: the ladder ends above `β = 0`, which is not corrected; the error estimate of an even number of temperatures covers another range; the uncertainty does not decrease with the number of ensembles. |
| C128 | The dictionary of the first sample; the function given to the optimiser, which returns the best of the tried points (assumption). Proved: given values are used, others are drawn. Partial: maximum when the prior is positive at all tried points. Refuted: points of prior zero are preferred. |
| C129 | Weights, `rejection_sample` (C35) and the writing into the chain through a shared frame. Proved: kept rows, law proportional to the posterior (for a fixed bound of the likelihood), all rows at `β = 1`. Refuted: with `use_ratio` and shared memory the chain changes; ensembles at zero temperature are counted twice. |
| C130 | `get_initial_betas` with `logspace`. Proved: geometric ladder from 1 to `1 / Tmax`, from the signal-to-noise ratio when `SNR² > ndim`. Refuted: colder ladder for small ratios; given ladders are checked for length only. |
| C131 | Data frames as labels and rows, the blocks with the file of finished blocks, a likelihood object with memory; an interruption is a bound on the number of blocks. Proved: values, rows, resumption, repetition, independence of processes. Refuted: another block size on resumption raises; the file is recognised by the samples only; parameters that the samples lack are those of the last evaluation. |
| C132 | Assignment of a column by position and by label. Proved: by position for log likelihoods and ratios. Partial: sky-frame parameters for labels `0, 1, …`. Refuted: other labels (values of other rows or NaN), empty frames. |
| C133 | Dictionary version, with conversions as parameters. Proved: kept parameters, fixed parameters, failing groups, subset. Refuted: supplied waveform settings are replaced by the defaults. |
| C134 | Moves as functions of point and draws; the claim as an identity of integrals against any test function, so that no densities are needed. Proved: detailed balance from the claim; Gaussian, adaptive and fixed jumps with all boundaries, draws from densities, stretch moves in other than one dimension. Partial: differential evolution and stored Fisher matrix without reflective boundaries. Refuted: differential evolution with a reflective boundary; the Fisher step that computes the matrix; the stretch move of one periodic parameter. |
| C135 | The rule for the scale with its counters, and the fallback inside a density estimate over whole runs. Proved: rule, floor, drift, decreasing rate. Refuted: the fallback never adapts. |
| C136 | The state of the object over runs with any outcomes of fits, and the verification on lists of draws with numpy's array shapes. Proved: use of the density, effects of a fit, waiting, verification of the mixture model. Refuted: one parameter (never trained); the kernel estimate (transposed array). |
| C137 | As C134. Proved: reversals on their ranges and for a periodic phase in any range of length 2π. Partial: correlated jumps without boundaries. Refuted: phase with negative values and no boundary; correlated jumps with periodic boundaries. |
| C138 | Classes with their subclass relation. Proved: what is removed. Refuted: `noAG` removes the Fisher matrix proposal too. |
| C139 | As C134, with the boundaries of these classes, which are always applied. Proved: normal steps, sky steps and flat draws with all boundaries; the half-period jump in phase and polarisation when both are periodic. Partial: ensemble walk, differential evolution and eigenvector steps without reflective boundaries; stretch without boundaries. Refuted: stretch with boundaries; half-period jump without them; the cycle, whose own `log_J` never changes. |
| C140 | Generator objects with identity, so that an object bound before a seed is another one than the current; computations as trees of draws. Proved: everything that looks up `random.rng` when it draws. Refuted: the default generator of the ensemble walk; the jumps that use python's `random`; seeds given under the sampler's own name. Shown besides: dynesty and bilby then draw the same numbers. |
| C141 | `check_iteration` on averages of autocorrelation times that are numbers, infinite or `nan`; the smoothed gradients are parameters. Proved: the conditions of stopping; the number of samples; what is discarded; the statistic used is at least that of Gelman and Rubin. Refuted: with an ignored parameter the sampler never stops; the window of the smoothing is not the nearest odd integer; the statistic is not exactly theirs. |
| C142 | Arrays that grow by blocks; slices; a run as a state of which the resume file contains a part. Proved: all parts, resuming under the condition that the stored temperatures are those of the sampler, which each round establishes. |
| C143 | The loop over outcomes of the minimisation; evaluation of prior and likelihood. Proved: the range of the initial positions; wrapping of stored positions. Refuted: the loop never gives up; points beyond the end of a periodic parameter are always rejected, since the wrapping of the evaluator is never called. |
| C144 | Quantiles by linear interpolation of sorted samples, as `numpy.quantile`. Proved: all parts about quantiles; the interval contains the median, is monotone in the level and contains more than `level * m - 1` of `m + 1` samples. Refuted: it contains the given fraction (not for two samples); errors relative to the mean have the right sign; the documented `lower` and `upper` of the error bar are set. |
| C145 | The table as a map from names to columns; densities are parameters. Proved: the columns; prior values for independent priors; weights for a new prior. Refuted: prior values of conditional priors; levels of integer injections; the density estimate after the posterior is replaced; posterior probabilities of several samples; weights when no parameter is shared. |
| C146 | Covariance matrices over the reals. Proved: one parameter; units; dimensionality of samples, its independence of the normalisation, and its value for Gaussians with exact averages. Refuted: the posterior volume of two correlated parameters; the prior volume with a fixed parameter. |
| C147 | The loop with fuel, exact arithmetic, arrays of floats only. Proved: all parts. Refuted: exactness for small absolute steps, for which every derivative is zero. |
| C148 | Real base-2 logarithm; the spline is a parameter; signatures as lists of names. Proved: all parts. Refuted: parameters that can be given by keyword only are not found. |
| C149 | Likelihood as an object with a mutable dictionary; draws as a stream; pools as names. Proved: the value of the log likelihood for any history, the ratio option, the check of draws, the number and finiteness of initial points, the pools. Refuted: random draws that fail the check are used; a pool of the user is closed as well. |
| C150 | Attributes as missing, comparable or not. Proved: the comparison of keys and likelihood, the options, the order of the parameters. Refuted: the priors are not compared; a likelihood without a description raises an error. |
| C151 | Directories as maps from names to contents; clocks as numbers. Proved: files over any number of sessions, total sampling time. Refuted: files that the sampler removes come back; the callback of ultranest copies nothing; the time that pymultinest leaves in the output directory is outdated. |
| C152 | Outputs of the external samplers are parameters. Proved: wrapped flags, rows of nested samples, volumes, masked pairs, the law of the move of dnest4. Refuted: the resume option of ultranest makes no difference; moves of dnest4 do not keep a prior that is not uniform. |
| C153 | Chains as functions of walker and step, in the axis order of the libraries. Proved: members and order of the result, alignment for kombine, number of steps after interruptions. Refuted: alignment for emcee with several walkers and steps; remaining samples for long autocorrelation times; walkers of kombine; resuming kombine after automatic burn-in. |
| C154 | Two parameters, one depending on the other; the log weights are parameters. Proved: weights, keywords, the maps for independent priors. Refuted: the maps for conditional priors. |
| C155 | Equations of state of LALSimulation and the normal quantile are parameters. Proved: checks, deformabilities, reparameterisations, Love relations, rows of arrays, the cases of the dictionary. Refuted: equal masses with uncertainties; a single sample with the automatic scatter; `lambda_2` alone; `lambda_symmetric` without the mass ratio. |
| C156 | Integrals over the real line in place of sums. Proved: Fourier transforms and norms of both polarisations, scaling with distance, linearity. Refuted: the unit of the distance of `supernova` (megaparsecs, documented as kiloparsecs). |
| C157 | LALSimulation as a function of frequency or a list; python strings as lists of characters. Proved: band, padding, epoch, errors, start frequency, names of keywords, nodes. Refuted: grids that do not start at zero; default reference frequency of the reduced-order quadratures. |
| C158 | dynesty as a deterministic iteration with a counter of calls and a stopping criterion; limits of `run_nested` count from the beginning of each call; clocks as numbers. Proved: equality of all runs, states written, times of writes, sampling time, rejection sampling, effective number, options. Refuted: user limits with checkpoints; signals before the start; days in the run statistics; the third method of printing. |
| C159 | Files and servers as functions. Proved: fetching, caching, order of channels, rates, intervals, conversions, the phase. Refuted: cached data with another buffer or options; writing without a cache; fetched data lost when not writable; buffers and detectors of frames; data after a trigger. |
| C160 | Distributions of PyMC as their documented densities. Proved: densities of all mapped priors, bounds, starting values, evaluation of the likelihood, step methods and options. Refuted: bounds of the beta prior; power law below minus one; the Pareto form; multivariate Gaussians; integer fixed parameters; unknown standard deviations; step options of NUTS. |
| C161 | Files as lists of rows, keyword arguments as partial functions. Proved: reading back, burn-in without thinning, defaults, distribution and renaming of options, initial positions. Refuted: burn-in of PTMCMC with thinning; positions in one dimension; the option `start` of zeus. |
| C162 | Tables as lists of pairs, interpolators as parameters that reproduce nodes. Proved: pseudo-enthalpies, extrapolation, rebuilding, differences, adiabatic index, sampled range, stitching to the low density table, units. Refuted: the monotonicity check never fails; the first pseudo-enthalpy; a speed of sound slightly above that of light; names of some files; sampled ranges and stitching without overlap; plots of the Love number. |
| C163 | The integrator of scipy as a parameter that returns the final state. Proved: equations, expansion at the centre to second order, Love number and its limit, families, maximum mass, interpolation in mass. Refuted: equal masses at the end of a family; the parabola when the second mass is already smaller. |
| C164 | On the state of the strain data of C57 and C66. Proved: soundness of the comparison, interval of times, notches, filtering before the transformation, times of exported series, frequencies for an even number of samples. Refuted: notches are not compared; reading the frequency domain changes the comparison; made notch lists are rejected; filtering after the transformation leaves the domains in disagreement; the spacing for an odd number of samples. |
| C165 | Chirp times, conversion, waveforms and responses as parameters; `np.roll` and the discrete Fourier transform written out. Proved: safe durations, the place of the signal, the optimal signal-to-noise ratio by the shift theorem, durations to half of a tenth of a second, precedence, segments, frames, channels. Refuted: doubled powers of two; short data accepted; arrival outside the data wraps around; the matched-filter value; rounding and missing masses in the check; short simulated segments; frames exactly covering; colons in names. |
| C166 | Lines as lists of characters, `eval` and the file system as parameters; spectral densities on the state of C114. Proved: reading of lines, white space, shapes, errors, precedence of arrays and files, warnings, comparison of new objects. Refuted: blank and indented comment lines; the error for an unknown shape; the comparison after a change of the frequency array. |
| C167 | Detectors and inner products of C5; priors as dictionaries of fixed values and opaque priors. Proved: the equality of the basic likelihood with the other, its maximum, sums over detectors, the priors of the likelihood and of the user for all combinations, defaults, conversion, errors, reference frames. Refuted: values of detectors with phase marginalisation and for failed waveforms; a second likelihood from the same priors; the announced default for the distance; the promised error of the generator; frames of detectors with long names. |
| C168 | Attributes as a dictionary with one setter per key; the optimiser and the likelihood ratio as parameters. Proved: options, the default offset and taper for every arrival, weights restored in every order with the highest mode first, fiducial values, the cut, dictionaries and lists of parameters, consistency after the search. Refuted: priors ending near the end of the data; the standard values; weights in other orders; the error for failed waveforms; the search with time jitter; the likelihood not decreasing. |
| C169 | Priors as the list of keys and of free ones; constructors with their errors; samples as partial functions of keys. Proved: exactly when the cycle for gravitational waves can be built, coverage of sampled parameters, weights, lengths, removal by name, phases, acceptance ratio, validation. Refuted: masses with only the second spin, fixed calibration or spins in the plane, calibration alone, names with `recalib` only, removal of everything, each proposal in the drawn cycle, a fixed phase with sampled `delta_phase`, a fixed inclination, a Boolean from the validation, signals missed by samples. |
| C170 | Parameters and values as types with decidable equality; the array as a partial function of indices; the recursion as in the code. Proved: points, the value of every entry, exponentials, names and contents of files. Refuted: fixed parameters, points in Python lists, the label of a grid made without saving or read from a file, the older file after a failed save. |
| C171 | Discrete Fourier transforms as sums, the arrays that are used again as a state, the conventions of C106. Proved: the power spectrum times the truncated correlation is exact for padded samples, hence the squared norm of every band; exactness for short signals; independence of earlier evaluations; slices and waveform frequencies. Refuted: a single band that reaches beyond the Nyquist frequency. |
| C172 | Points as functions of the coordinates, random numbers as arguments, laws by Lebesgue measure and Mathlib's Gamma measure. Proved: displacements, reversibility and symmetry over pairs, law of the factor, radial law and isotropy of volumetric proposals, weights of a dictionary, flags for rebuilding. Refuted: the documented default of `scale`; sets and strings of proposals. |
| C173 | Credible levels as real numbers or missing, probabilities by the Lebesgue measure on the cube, scipy's quantile of the binomial distribution as the smallest number whose distribution function is large enough, scipy's tests left out. Proved: monotone curves, binomial law, coverage of the bands, deviation for finitely many samples, arguments, labels. Refuted: that the curve reaches one at the end of the range. |
| C174 | Bands as functions of their number, elements of bases as lists of complex numbers, numpy's transforms by their definitions, one detector, one element and one time sample at a time; durations already divided by the scale factor. Proved: equality with the usual products for band-limited series with whole numbers of samples, bins. Refuted: the product at the highest frequency. |
| C175 | File names as lists of characters, np.load and the parameters inside files as arguments, matrices with complex entries; numpy's choice by one uniform number; values of the likelihood finite. Proved: formats, transposition, merged band, numbers, nodes, law of the times. Refuted: equality of an array and the file with it, a file of the name hdf5, nodes given twice. |
| C176 | The sampler as its settings and opaque chains, dill as a test of whether the object can be written, the file as missing, empty, another object or a sampler; clocks as reals that agree. Proved: running sampler untouched, restart, error for other tempering, age and distance of check points, chains and evaluations. Refuted: other tempering without resume, other proposals or evidence on a restart, seconds of runs longer than a day. |
| C177 | Curves by their ordinates; rows drawn and names as arguments; np.percentile as in C144, whitening as in C117; matplotlib refuses negative error bars. Proved: samples, frequencies, times, band, factor between waveform and injection, pairing of nodes. Refuted: about 4000 frequencies, mean inside the band, injection on the waveform, calibration figure for skewed posteriors, its level. |
| C178 | What is drawn, not how; nan and missing values as none, exceptions as none. Proved: the arguments of corner plots, labels, true values, priors, walkers of several parameters, maximum for rows numbered in order. Refuted: injection with a list of parameters, values turned off with a dictionary, list of values alone, values of one parameter, truth=True, priors of results without them, walkers of one parameter, maximum for other indices, labels after priors are replaced. |
| C179 | Dictionaries as lists in order; a process of celerite or george by its free parameters and a function for its log likelihood; celerite gives the entries of a vector to the parameters in order and ignores those left over. Proved: values after updates for celerite, any order for george, set_parameters, mean models. Refuted: other order of the dictionary for celerite, unknown names for george, package of mean models for george. |
| C180 | Means as real numbers, infinite ones as none; exact means in the bound on the error. Proved: means, bound between the ends of the ladder, constant and linear means, which temperatures are used. Refuted: ladders that do not reach zero, one temperature, infinite means. |
| C181 | Names as lists of characters; classes as any values; posterior rows with an optional stored likelihood. Proved: listed names are distinct and found, contained names are those found, order of plug-ins, checks, size of the pool, values of the fake sampler. Refuted: names with the prefix inside or capital letters, fake sampler with files without likelihoods, likelihoods of its rows, its arguments. |
| C182 | LALSimulation and the solver of the structure equations as parameters; errors by their messages. Proved: values and errors at chosen frequencies, waveforms at the nodes of quadratures, settings in the dictionary, increase over the first seven points, prior of the check, identity map. Refuted: caught errors with quadratures, dictionary of the caller, increase at the eighth point. |
| C183 | Flow and optimiser as a state with a step; exceptions as missing divergences; density estimates as a parameter, with small exponentials rounded to zero. Proved: bounds, symmetry and extremes of the divergence, maximum over parameters, first multiple of ten below the threshold, counters, fallback, number of proposals between trainings, alternating couplings. Refuted: unit of bits, range of the comparison, draws far above the chain, flow that did not converge, trainings after exceptions, threshold for short chains. |
| C184 | Paths as lists of characters; reading as a function that may fail; errors that are not finite as missing. Proved: choice of the file, lenient and strict lists, name of the pickled file, construction, bounds of the combined error. Refuted: unknown levels, directories with a dot, files written in part, default of the constructor, sets of results, level of the list, error of equal runs, error with a run without one. |
| C185 | Attributes as an enumeration with optional values; conversions of the constructor as functions that leave converted values alone; encoding and writing of files as successful. Proved: round trip of the attributes with priors, in both formats, what the constructor stores, labels, which attributes raise and are saved, class on reading, errors of reading, lines of the summary, columns of the written posterior. Refuted: autocorrelation time, labels without priors, results without posterior in hdf5, classes that have left their module, empty summary, columns named like a modulus. |
| C186 | Dictionaries as lists of pairs; estimates of the autocorrelation time and draws as arguments. Proved: parameters of samples, assignment and copy, lowest random row, infinite and finite autocorrelation times, samplers put back in any order, columns, partition by temperature, counts and ratios, arrays of the thermodynamic integral, method of the evidence, rows and error of the bootstrap. Refuted: new entries of samples, equality of samples, first and last row in the bootstrap. |
| C187 | Dictionaries of options as functions of the name; arrays by their shape. Proved: options of emcee before and after version 3, of kombine with its burn-in, of zeus and ptemcee; data frames, arrays and dictionaries of starting points; evaluation and wrapping of ptemcee. Refuted: arrays of starting points for one parameter, checking of starting points. |
| C188 | Floats with infinities and not-a-number; comparison of other values, of spectral densities and of data as arguments; arrays with their place in memory. Proved: equality of priors with reflexivity and symmetry, of interpolated priors, joint distributions, geometries with what can be read from them, calibration models, detectors. Refuted: arrays with not-a-number, names of interpolated priors, symmetry and exactness for joint distributions and their use, spline calibration. |
| C189 | Parameters on finite grids; each step draws with the probabilities of the averaged likelihood (the steps themselves are in C80 to C83); the dictionary with the draws as functions of waveform and dictionary. Proved: what each step averages over, joint distribution for every combination of marginalisations, values kept and changed. Refuted: sky position after drawing the time alone. |
| C190 | Table of handlers, methods as functions of it; loggers as lists of handlers with levels; results of commands and of emcee's estimate as values. Proved: handlers during and after, level and handlers after any sequence of calls, errors of commands, longest autocorrelation time, base names. Refuted: handlers after exceptions or without SIGALRM, second label, terminal handler beside a file, silent failure, nan. |
| C191 | The two distances as functions of the redshift; the search for the redshift gives the solution in the range of redshifts where there is one and raises otherwise. Proved: round trips, order, entries of the source frame, consistency of masses, idempotence. Refuted: distance 0, redshift alone, redshift replaced, error for distances out of reach. |
| C192 | Meta data as trees of dictionaries; the run writes them, the result reads them by paths. Proved: what is read is what likelihood and detectors wrote, missing entries, order of detectors, last injection. Refuted: detectors of one name, detectors without injection, no meta data, sampler objects. |
| C193 | Dictionaries of options through constructor, verification, set-up of directories, run and clean-up. Proved: values kept, directories, no option twice, what each sampler gets, seeds under general names. Refuted: directory of the user, second run and stored directory of ultranest, options dropped by ultranest, PolyChord, DNest4, nestle and nessai, seeds under the sampler's name. |
| C194 | Trees of dictionaries, lists and values with the decoder of one dictionary as a parameter; cosmologies as class with positional and keyword-only arguments; packages as outcomes of the commands. Proved: decoding is idempotent, keeps plain data, and agrees with reading for shallow data; cosmologies, quantities, modules, order of sources. Refuted: nested objects, lists, names and foreign classes of cosmologies, failing pip. |
| C195 | A file system of directories and files; pickles with their class, text files as parts of a detector, names of weights as characters. Proved: reading back, other files unchanged, names distinct, densities, formats. Refuted: directory and label of detectors, triangular detectors, directory of data, labels, window counted twice, formats inside names. |
| C196 | Priors as free, fixed and constraints, with the conversion as a parameter; evaluation at points of samplers and for draws. Proved: meaning of the value, points of samplers for binaries, draws, other conversions without fixed parameters, agreement of implementations. Refuted: conversions of the user with fixed parameters, unknown quantities. |
| C197 | Entries as priors, numbers and others; the set of missing keys as a list in the order of iteration; draws as an abstract value for each key, with the list of keys returned. Proved: entries kept, only defaults added, no excess in sets, completeness, order for plain dictionaries, rows of arrays. Refuted: order for binaries, fixed parameters, constraints among the keys. |
| C198 | Laws as measures on the parameters, integrals over the proposal and the uniform draw; the step is that of the model of the chain. Proposals that use the history of the chain are outside. Proved: a step, any sequence of steps, a swap. |
| C199 | The uniform law as Lebesgue measure on the region; the step is that of the model of the walk. Live points are fixed; the fallback for walks without acceptance is outside. Proved: differential evolution, volumetric proposals, walks of any length. Refuted: two reflective parameters. |
| C200 | Names, labels and units as strings or None; the table of labels as a parameter. Proved: labels of priors, round trips, labels of results, figures and legends. Refuted: priors without name, renamed priors, dependence on imports, priors assigned to results later. |
| C201 | Arguments as a dictionary of strings and numbers; the property of the approximant is a parameter. Proved: equal frequencies in use, what is accepted and refused. Refuted: arguments left to their defaults. |
| C202 | The rows that are drawn are a finite product of a probability measure on rows; the loops have fuel. Proved: law and independence of the returned rows for each number of batches, of a single draw, and probabilities of returning that go to one. |
| C203 | Rows of any type with a decision whether the constraints hold; chunks as lists of rows; the loop has fuel; rounding as any function to a nearest whole number. Proved: estimates as ratios, when they come, bounds of the factor. Refuted: impossible constraints, chunks of one row, scattered estimates. |
| C204 | Draws as a finite product of the uniform law on [0, 1); rows labelled by their position. Proved: law of the set of kept rows, expectations, the reweighted law against the largest possible weight. Refuted: the reweighted law for the largest weight of the rows at hand. |
| C205 | Samples as a finite product of the posterior; likelihoods and priors as extended real logarithms. Proved: the expected evidence, unbiasedness. Refuted: models with parameters that the old one does not allow. |
| C206 | Samples of an event as any measure whose marginals are the posterior; events as a product measure. Proved: the mean of the exponential. Refuted: the mean of the logarithm. |
| C207 | Draws as a finite product of uniform laws, one for every row of every run. Proved: expected sums and numbers of rows, weighted means for runs of equal length. Refuted: weighted means for runs of different lengths. |
| C208 | The run of C126 continued with other convergence inputs; the caches and the mark of convergence are kept, as in the check point. Proved: enough samples, steps without stop_after_convergence. Refuted: restarts with stop_after_convergence. |
| C209 | Keyword arguments as in C63, then the two named tuples and the attributes of the chains. Proved: values of the options, of the chains at the start and after a restart, number of processes. Refuted: threads and its like, target_nsamples. |

## 4. Disagreements between code and properties

Each line is a theorem that proves the negation of the property for a concrete
input (the list is generated from the theorems' comments by
`tools/manifest.py`). The matching `_partial` theorem states what does hold.

<!-- generated: disagreements -->
* `cosine_density_violated` (Priors.lean): C02 fails for other bounds: the density of `Cosine(0, π/2)` integrates to one half.
* `sine_density_violated` (Priors.lean): C02 fails for other bounds: the density of `Sine(0, π/2)` integrates to one half.
* `power_law_ln_prob_violated` (Priors.lean): C03 fails at `x = 0 = minimum`: `prob` is 0 but `ln_prob` is finite (`nan_to_num` turns `log 0` into a large finite number).
* `symmetric_log_uniform_ln_prob_violated` (Priors.lean): C03 fails off the support: `prob` is 0 but `ln_prob` is finite, for every admissible prior.
* `power_law_cdf_violated` (Priors.lean): C05 fails: the cdf of a power law below its minimum need not be 0 nor monotone. Here `PowerLaw(alpha=1, minimum=0, maximum=5).cdf(-5) = 1`.
* `interped_history_violated` (Interped.lean): C07 fails for some history: narrow the range, assign `yy`, widen the range again and narrow it on the other side. All setter calls are accepted, the tables are positive, but the new table is zero at every knot (the code then divides by zero), so nothing is normalised.
* `categorical_prob_violated` (Categorical.lean): C08 fails from 17 categories on: the last category has probability density zero although draws land on it with probability exactly `1/n`.
* `categorical_range_violated` (Categorical.lean): C08 fails at probability one: the result is not a category, and has zero `prob`.
* `copy_conversion_violated` (PriorDict.lean): C10, C12: `copy` keeps the entries but forgets the conversion function, so a copy may accept samples that the original rejects.
* `healpix_pixel_choice_violated` (HealPix.lean): C100: `rescale` does not choose pixels with their probabilities: for the uniform map the first pixel is chosen with probability `1 / (2 (npix - 1))` instead of `1 / npix`.
* `healpix_draw_violated` (HealPix.lean): C100: a direction drawn for a pixel need not be in it: a set of directions whose area in right ascension and declination is at most twice the pixel's solid angle (a pixel within 60° of the equator) contains at most half of the draws.
* `healpix_distance_lost_violated` (HealPix.lean): C100: a distance that has to be drawn again is lost: the method returns nothing.
* `healpix_distance_error_violated` (HealPix.lean): C100: with a lower distance bound above zero small uniform numbers are an error.
* `healpix_layout_violated` (HealPix.lean): C100: of two samples the first comes back as the two right ascensions and a declination.
* `relbin_inner_violated` (RelativeBinning.lean): C101: the matched-filter value is not exact although the ratio is affine in every bin: with one bin of two frequencies it is 0 instead of 1.
* `relbin_epsilon_violated` (RelativeBinning.lean): C102: `epsilon` does not bound the phase change in a bin: it can be one and a half times as large, although there are frequencies between the edges.
* `relbin_no_bins_violated` (RelativeBinning.lean): C102: with `epsilon` above the whole phase change there is an error instead of one bin.
* `relbin_band_violated` (RelativeBinning.lean): C104: a detector whose band starts above the lowest minimum frequency of the network, or ends at the last edge (for instance because the waveform reaches its maximum frequency), makes the likelihood fail: the summary data exist exactly if the detector's mask starts with the band and reaches beyond the last edge.
* `mb_search_violated` (MultibandSearch.lean): C105: for every duration that leaves room for a band there is a time offset for which the frequency found does not meet the conditions it is searched for.
* `mb_one_point_violated` (Multiband.lean): C107: a band with only one banded frequency does not contribute to the squared norm.
* `joint_ln_prob_violated` (PriorDict.lean): C11 fails where a density is infinite (the spike of a slab-and-spike prior) and a constraint is violated: the probability is 0 but the log probability is `+∞`.
* `calib_stale_violated` (Calibration.lean): C110: the same call, without any calibration parameters, raises an exception on a new object and returns the factor of the earlier parameters after another call.
* `precomputed_negative_violated` (Calibration.lean): C111: a negative index is not an error but counts from the last curve.
* `precomputed_missing_violated` (Calibration.lean): C111: a missing index raises a `TypeError`, not the `KeyError` that the code has for this case.
* `calib_file_params_violated` (Calibration.lean): C112: read from another curve on, the parameters are those of other curves: the first curve returned has number 1, the first parameters number 0.
* `lookup_rebuild_violated` (Calibration.lean): C112: with a starting index the table built again from the file has fewer curves: two at first, one afterwards.
* `lookup_precomputed_violated` (Calibration.lean): C112: precomputed curves are used once: after building the table the model is gone and, as no file was written, building it a second time fails, with or without priors.
* `lookup_model_violated` (Calibration.lean): C112: otherwise the curves belong to other nodes: for a model with nodes between 1 and 1000 and a band between 1 and 10, the factor at 10 is 2 in the model and 4 in the table, for the same parameters.
* `psd_list_violated` (Psd.lean): C114 fails for a Python list: the assignment raises an error, but the power density is already replaced and the amplitude density is not.
* `psd_alias_violated` (Psd.lean): C114 fails after an in-place change of the frequency array of the last query: the array is compared with itself and the old values are returned.
* `psd_returned_violated` (Psd.lean): C114 fails after an in-place change of the array returned: it is the cached one.
* `psd_frequency_violated` (Psd.lean): C114 fails after an assignment of the frequency array alone: at its own frequencies the object does not have its own density.
* `noise_nyquist_violated` (Noise.lean): C115 fails at the Nyquist frequency for an even number of samples: the noise is always zero there, whatever the density.
* `periodogram_violated` (Noise.lean): C115 fails for the spectrum of simulated noise: the mean of `psd_from_freq_series` of a noise realisation is twice the density.
* `inject_erases_violated` (Injection.lean): C116 fails outside the band: an injection, even of nothing, sets the stored data outside the band to zero, and they stay zero when the band is widened afterwards.
* `whitened_variance_violated` (Noise.lean): C117 fails for the whitened time series: every sample of the whitened noise of an even number `N` of samples has the variance `((N + 2) / N) ^ 2` and not one, whatever the band.
* `rejected_stays_violated` (Networks.lean): C118 fails after an exception: the refused detector has been added all the same, and every later append raises.
* `start_time_violated` (Networks.lean): C118 fails for GPS times: start times that differ by one part in a thousand million, about a second, are accepted.
* `order_violated` (Networks.lean): C118 fails for the order: the same three detectors are accepted or refused depending on which one comes first, and removing a detector from an accepted list can leave a refused one.
* `unchecked_violated` (Networks.lean): C118 fails for `+=` and item assignment: they check nothing.
* `network_inject_violated` (Networks.lean): C118 fails for a refused injection: the detectors before the first one in which the signal does not fit have already been changed.
* `triangle_vertex_violated` (Networks.lean): C119 fails for the vertices: the arms of the first detector end at the other vertices of the triangle, its second arm (turned by sixty degrees) at the second vertex, since that one has its first arm in the opposite direction; the code puts the second vertex on the other side: with a second arm towards the north-east the second vertex is to the south-west.
* `triangle_side_violated` (Networks.lean): C119 fails for the distance: the distance in the east-west direction of the first two vertices (radius times cosine of the latitude times difference of longitude) is at most the projection of the arm times the cosine of the latitude, hence too short away from the equator: the convergence of the meridians is left out.
* `normalization_violated` (PriorDict.lean): C12 fails: after an evaluation, replacing an entry never changes the factor again, however different the correct factor of the new priors is.
* `roq_merged_violated` (Roq.lean): C120 fails for two basis files that start at different frequencies: the weights of the file that starts `s` bins lower take, for every frequency of the merged band, the value of its elements `s` bins below.
* `roq_notch_violated` (Roq.lean): C120 fails with a notch: the mask has the bins 1 and 3, the data and the signal are one; the exact inner product at the first time sample is zero, the weights give `4 (i - 1)`.
* `roq_array_wraps_violated` (RoqTime.lean): C121 fails for time marginalisation: at a time in the second step of the samples, where the likelihood without time marginalisation is refused, the value for time marginalisation takes the last sample for the one before the first: it is not zero for data that vanish at all the samples around.
* `roq_grid_clipped_violated` (RoqTime.lean): C122 fails at the ends of the segment: for every step, a signal within two steps of the start of the segment is refused although the prior contains it.
* `roq_last_detector_violated` (RoqTime.lean): C122 fails with several detectors: the time step is computed from the noise of the last one alone, whatever the noise of the others.
* `basis_gap_violated` (RoqBases.lean): C123 fails if the ranges of the bases leave a gap: the prior is inside the bounds that are checked, and a point of the prior in the gap raises an exception.
* `basis_unnamed_violated` (RoqBases.lean): C123 fails without a conversion: if the parameters do not have the names of the ranges (component masses sampled, ranges of the chirp mass), the first basis is used everywhere.
* `basis_stale_violated` (RoqBases.lean): C123 fails after an exception: at `q = 5/2` the linear basis is found and the quadratic one is not; evaluated again at `q = 1/2`, the parameters of the cache, the linear basis of `q = 5/2` is used.
* `weights_npz_violated` (RoqBases.lean): C124 fails for npz and json files: the weights of one basis come back without the ranges of the prior, so that nothing is checked against them, and without the frequency nodes.
* `weights_empty_violated` (RoqBases.lean): C124 fails for a file that has nothing in the prior: it is loaded without an exception, with no basis at all.
* `thin_overflow_violated` (Convergence.lean): C125 fails when `thin` reads the autocorrelation time twice: after 61 steps and 50 readings the first reading returns the cached finite value and the second a new infinite one, whose conversion to an integer raises.
* `silent_never_stops_violated` (ConvergenceRun.lean): C126 fails when no progress is printed: the sampler compares the number of samples as of the last message, so without one (`printdt` longer than the run) it never stops, however many samples there are.
* `frozen_never_stops_violated` (ConvergenceRun.lean): C126 fails with `stop_after_convergence`: a chain is frozen as soon as the cached autocorrelation time gives more than the requested number of samples; if the recalculated time then gives fewer, the run never stops, whatever follows.
* `evidence_hot_end_violated` (Tempering.lean): C127 fails because the ladder ends at `β₀ = 1 / Tmax > 0` and not at zero: for a constant log likelihood `c` the evidence is `exp c`, but both methods return `(1 - β₀) c`, whatever the samples.
* `thermodynamic_even_violated` (Tempering.lean): C127 fails for the error estimate with an even number of temperatures: the coarse rule leaves out the hottest step, so that for a constant mean log likelihood `c`, where the integral is exact, the estimate is `(β₁ - β₀) |c|`.
* `ensemble_error_violated` (Tempering.lean): C127 fails for the uncertainty of several ensembles: with equal evidences and uncertainties `σ`, the uncertainty of the average of independent estimates is `σ / √N`, but `σ` is reported for every `N`.
* `maximise_excluded_violated` (TemperingLadder.lean): C128 fails when a constraint excludes points within the bounds: the function that is minimised is `-inf` where the prior is zero, so whenever the optimiser tries such a point and returns the best, the starting point has prior zero.
* `hot_shared_violated` (TemperingLadder.lean): C129 fails with `use_ratio` when the frame is a view of the chain (pandas without copy-on-write): each call adds the noise log likelihood to the chain's rows after the burn-in. A row that is recorded later has it added fewer times, and two rows with equal likelihood no longer get equal weights.
* `hot_count_violated` (TemperingLadder.lean): C129 fails for the count with several ensembles at one temperature: rejection sampling is counted for `sampler_list[1:]`, which are zero-temperature chains that were counted already and are not thinned here, while `samples` returns only their thinned rows. The run below stops although 15 samples are requested and 10 are returned.
* `ladder_snr_violated` (TemperingLadder.lean): C130 fails for a small signal-to-noise ratio: with `SNR² < ndim` the ladder is above one, so that all further chains sample a likelihood raised to a power greater than one and none counts as tempered (`beta < 1`).
* `ladder_given_violated` (TemperingLadder.lean): C130 fails for a ladder given by the user: only its length is checked. A ladder in the wrong order or without `β = 1` is accepted; without it there is no zero-temperature chain and no samples.
* `reconstruct_stale_violated` (Postprocess.lean): C131 fails when the likelihood has changed: the file is recognised by the samples only, so that a completed reconstruction for one likelihood is used for every other with the same output directory, label and samples.
* `reconstruct_block_violated` (Postprocess.lean): C131 fails when an interrupted reconstruction is resumed with another block size: the finished block is kept and the blocks that start inside it are computed again, so that there are more values than rows.
* `reconstruct_history_violated` (Postprocess.lean): C131 fails for a parameter that the likelihood reads and the samples do not have: what the likelihood object was used for before decides.
* `rows_empty_violated` (Postprocess.lean): C132 fails for a data frame without rows: both raise.
* `skyColumns_labels_violated` (Postprocess.lean): C132 fails for the sky-frame parameters of samples with other labels (for example after sorting, resampling or selecting rows): they are assigned by label.
* `generate_default_violated` (Postprocess.lean): C133 fails for the waveform settings in the sample: without a waveform generator that has them they are replaced by the defaults.
* `differentialEvolution_reflective_violated` (Proposals.lean): C134 fails for differential evolution with a reflective boundary: a jump that is reflected in one parameter changes the others in the direction that belongs to the jump before the reflection, and its reverse is not proposed.
* `stretch_one_periodic_violated` (Proposals.lean): C134 fails for the stretch move of a single parameter with a periodic boundary: the factor is zero, so the new point is wrapped, and the way back is not proposed.
* `fisherUpdate_violated` (Proposals.lean): C134 fails for the proposal with the Fisher matrix in the steps in which the matrix is computed: the width of the jump is that at the current point, that of the jump back is another one, and the factor is zero.
* `fallback_adapts_violated` (ProposalTraining.lean): C135 fails for the Gaussian proposal used by a density estimate before its first training: in any run its counters stay zero, since the decisions are counted by the outer object, and so its scale never changes.
* `single_parameter_violated` (ProposalTraining.lean): C136 fails for a single parameter: whatever the fit, it is discarded if the verification points are not all equal, so that neither estimate is ever trained.
* `kde_verification_violated` (ProposalTraining.lean): C136 fails for the kernel density estimate: the spread is taken over the parameters of one draw instead of over the draws of one parameter. A fit with no spread at all is kept, and a fit with the spread of the verification points is discarded.
* `phaseReversal_negative_violated` (ProposalPhase.lean): C137 fails for a phase that may be negative and has no boundary: the new phase is in `[0, 2π)`, so from there the negative phases are not reached again.
* `correlatedJump_periodic_violated` (ProposalPhase.lean): C137 fails for the correlated jump if polarisation and phase are periodic: a jump that is wrapped has no reverse.
* `noAG_violated` (ProposalTraining.lean): C138 fails for `AG`: the proposal with the Fisher matrix, which has its own name, is removed too.
* `jumpStretch_boundary_violated` (JumpProposals.lean): C139 fails for the stretch move if every parameter has a boundary: the new point is folded back into the ranges, but the log Jacobian is that of the move before.
* `polarisationPhase_free_violated` (JumpProposals.lean): C139 fails for this jump if the phase has no boundary: the phase grows with every jump.
* `cycle_logJ_violated` (JumpProposals.lean): C139 fails for the cycle: its own log Jacobian, the one that cpnest reads from the object it calls, does not change in any sequence of proposals, whatever Jacobians they have.
* `conditional_rescale_violated` (ConditionalEval.lean): C14 fails after an edit that changes the order: `a` and `b` are rescaled, then `a` is replaced by a prior conditional on `b`; from then on each of them is given the other's coordinate.
* `conditional_rescale_fixed_violated` (ConditionalEval.lean): C14 fails after a fixed parameter was evaluated at another value: `rescale` then conditions on that value.
* `walk_unseeded_violated` (Seeds.lean): C140 fails for the walk along the ensemble with its default generator: its coefficients come from the generator made at import, which no seed resets.
* `sky_unseeded_violated` (Seeds.lean): C140 fails for the jumps on the sky: they draw from python's module `random`, which no seed of bilby resets.
* `own_key_unseeded_violated` (Seeds.lean): C140 fails if the seed is given under the sampler's own name (`seed` for dynesty, cpnest, nessai and others): bilby's generator is left as it was.
* `no_key_unseeded_violated` (Seeds.lean): C140 fails for samplers without a seed of their own (emcee, ptemcee, zeus and others): a seed among the arguments is ignored by bilby as well.
* `ignored_never_stops_violated` (Ptemcee.lean): C141 fails if a parameter is excluded from the estimate of the autocorrelation time with `ignore_keys_for_tau`: its time counts as infinite, so that the sampler never stops, whatever the chains are.
* `gradWindow_violated` (Ptemcee.lean): C141 fails for the stated length of that window, the nearest odd integer to the number of parameters: for an odd number it is larger by two.
* `q_violated` (Ptemcee.lean): C141 fails for the claim that the statistic is the one of Gelman and Rubin: the variances are divided by the number of steps, not by one less.
* `minimise_never_gives_up_violated` (Ptemcee.lean): C143 fails for the limit on the number of minimisations: the counter is never increased, so that failures never end in the error that the code has for it.
* `periodic_rejected_violated` (Ptemcee.lean): C143 fails for the claim that walkers cross the ends of a periodic parameter: a proposed point beyond the end has no prior probability, although the point it stands for has, so that it is never accepted, and the wrapping has nothing to do.
* `interval_count_violated` (Summary.lean): C144 fails for the claim that the interval contains at least the given fraction of the samples: of two different samples it contains none, at any level.
* `interval_mean_violated` (Summary.lean): C144 fails for the errors relative to the mean: the mean may lie above the upper end of the interval.
* `errorBar_lower_violated` (Summary.lean): C144 fails for the documented attributes `lower` and `upper` of the error bar: they are never set.
* `priorValues_conditional_violated` (PosteriorTable.lean): C145 fails for conditional priors: the density used is the one for the value of the other parameter that was used last, in all rows.
* `priorValues_conditional_last_violated` (PosteriorTable.lean): C145 fails for conditional priors in every case: the other parameter of the row has no effect.
* `levelKeys_violated` (PosteriorTable.lean): C145 fails for injected values that are integers: no credible level is computed for them.
* `kde_stale_violated` (PosteriorTable.lean): C145 fails after the posterior is replaced: the estimate remains that of the old one.
* `posteriorProbability_many_violated` (PosteriorTable.lean): C145 fails for several samples: unless there are as many as parameters it is an error.
* `posteriorProbability_square_violated` (PosteriorTable.lean): C145 fails for as many samples as parameters: parameters and samples are interchanged.
* `newPriorWeight_none_violated` (PosteriorTable.lean): C145 fails if no parameter is shared: then the constraints of the new prior are not applied.
* `posteriorVolume_violated` (PosteriorTable.lean): C146 fails for two parameters: the posterior volume is not the square root of the determinant of the covariance, since the reciprocal of every entry is taken instead of the inverse of the matrix.
* `priorVolume_fixed_violated` (PosteriorTable.lean): C146 fails with a fixed parameter among the priors: the prior volume is zero.
* `derivative_small_violated` (NumHelpers.lean): C147 fails for small absolute steps: they count as relative ones, and below twice the smallest of these the derivative of every function is zero.
* `inferParameters_keyword_violated` (NumHelpers.lean): C148 fails for parameters that can be given by keyword only: they are not found.
* `randomDraw_violated` (SamplerBase.lean): C149 fails for the draws that MCMC samplers start from: the verdict about the draw is not used, so it may have an infinite likelihood.
* `closePool_user_violated` (SamplerBase.lean): C149 fails for a pool that belongs to the user: it is closed as well.
* `conditional_prob_violated` (ConditionalEval.lean): C15 fails for condition functions that set an attribute only sometimes: the joint probability of the same complete sample is `1/2` for a fresh dictionary and `1` after another sample has been evaluated.
* `checkCached_priors_violated` (SamplerBase.lean): C150 fails after a change of the priors: the cached result is used whatever the priors of either run are.
* `checkCached_error_violated` (SamplerBase.lean): C150 fails for a sampler without a description of the likelihood: with a cached result, even one that does not match, it raises an error.
* `moveBack_violated` (NestedWrappers.lean): C151 fails for the documented removal of what is in the output directory: a file that the sampler has deleted is still there afterwards.
* `vizCallback_violated` (NestedWrappers.lean): C151 fails for ultranest during the run: its callback never copies anything to the output directory.
* `dumpCallback_violated` (NestedWrappers.lean): C151 fails for pymultinest during the run: the time in the output directory is that of the callback before, since the files are copied before the time is saved.
* `ultranestResume_violated` (NestedWrappers.lean): C152 fails for resuming ultranest: the option makes no difference.
* `dnestMove_prior_violated` (NestedWrappers.lean): C152 fails for every other prior: the log factor zero is right only if the prior gives each set its share of the box.
* `burnedIn_violated` (Ensemble.lean): C153 fails for the autocorrelation time: a run passes the check if all of its steps are discarded, and has no samples.
* `emcee_aligned_violated` (Ensemble.lean): C153 fails for emcee in all other cases: samples are ordered by walker, log likelihoods by step, and the second log likelihood is that of the second walker while the second sample is the second step of the first walker.
* `kombineWalkers_violated` (Ensemble.lean): C153 fails for the walkers of kombine: the second step stored for the first walker is the first step of the second walker.
* `kombineAuto_resumed_violated` (Ensemble.lean): C153 fails for kombine when it is resumed: the steps of the burn-in count towards the requested number, and the number that is discarded is a fraction of this number instead of the burn-in.
* `nessai_unit_violated` (Ensemble.lean): C154 fails for conditional priors: the value of the other parameter does not reach the prior, so that the map is not inverse to the other one, and gives points outside of the prior.
* `love_equal_violated` (Tidal.lean): C155 fails for the relations with their uncertainty: stars of equal mass get different tidal parameters, even without scatter.
* `loveAuto_violated` (Tidal.lean): C155 fails for a single sample: without an explicit draw there is an error.
* `convertBns_second_violated` (Tidal.lean): C155 fails if only `lambda_2` is given: `lambda_1` remains undefined.
* `convertBns_symmetric_violated` (Tidal.lean): C155 fails for `lambda_symmetric` when the component masses are sampled: without the mass ratio no tidal parameters are computed; with it, and without an explicit draw, there is an error.
* `supernova_unit_violated` (Source.lean): C156 fails for the documented unit of the distance: at ten kiloparsecs, which is the distance of the simulation, the waveform is a thousandth of that of the file.
* `assemble_offset_violated` (Source.lean): C157 fails for a grid that starts at another frequency: the waveform at each frequency is the one for the distance to the start.
* `defaultReference_violated` (Source.lean): C157 fails for the default reference frequency: that of the reduced-order quadrature differs from that of the waveform it replaces.
* `limits_violated` (DynestyRun.lean): C158 fails for limits on iterations and calls: with checkpoints they have no effect, and the run goes on to the stopping criterion.
* `early_signal_violated` (DynestyRun.lean): C158 fails if a resumed run is stopped before it samples: the time since the file was written is added.
* `unstarted_violated` (DynestyRun.lean): C158 fails if a new run is stopped between the construction of the sampler and the start: the file that is written cannot be resumed.
* `samplingTime_violated` (DynestyRun.lean): C158 fails for longer runs: whole days are missing.
* `printFunc_violated` (DynestyRun.lean): C158 fails for the third method of printing, which is documented to print at each iteration: it is an error.
* `openData_cache_violated` (DataAccess.lean): C159 fails for cached data and another buffer or other options: the name of the file does not contain them, so that the data of the first request are returned.
* `openData_write_violated` (DataAccess.lean): C159 fails without a cache: the file is written all the same.
* `openData_unwritable_violated` (DataAccess.lean): C159 fails if the file cannot be written: data that were fetched are lost.
* `readFrame_buffer_violated` (DataAccess.lean): C159 fails for the buffer of frames, which has no effect.
* `readFrame_detector_violated` (DataAccess.lean): C159 fails for a channel of another detector: if it is not in the file, data of a channel of Hanford are returned in its place.
* `gracedb_violated` (DataAccess.lean): C159 fails for data around a trigger: none are looked for later than the second in which the trigger lies.
* `pymc_beta_violated` (Pymc.lean): C160 fails for beta priors on other intervals: the bounds are not passed on, and the parameter is sampled from the unit interval.
* `pymc_power_law_violated` (Pymc.lean): C160 fails for power laws: the index plus one divides where it should multiply, and the density of PyMC is not normalised unless the index is zero.
* `pymc_pareto_violated` (Pymc.lean): C160 fails for power laws with an index below minus one: the bounds are exchanged and the density of PyMC is zero everywhere.
* `mvg_violated` (Pymc.lean): C160 fails for multivariate Gaussian priors: the wrapper reads an attribute that they do not have.
* `pymc_likelihood_integer_violated` (Pymc.lean): C160 fails for parameters fixed to integers: the likelihood keeps whatever value it has, or none.
* `pymc_sigma_violated` (Pymc.lean): C160 fails for an unknown standard deviation, or number of degrees of freedom: the random variable is stored where the likelihood does not look, and PyMC is given `None`.
* `nuts_step_kwargs_violated` (Pymc.lean): C160 fails for options of NUTS given with those of the other step methods: they are never used.
* `ptmcmc_burn_violated` (OtherSamplers.lean): C161 fails with thinning: the burn-in counts rows and not iterations, and `thin` times as many iterations are discarded.
* `pos0Accepted_violated` (OtherSamplers.lean): C161 fails in one dimension: positions given as an array are always rejected.
* `zeusStart_violated` (OtherSamplers.lean): C161 fails for the option `start` of zeus: it is replaced by the positions drawn or given as `pos0`.
* `checkMonotonicity_violated` (Eos.lean): C162 fails: no table is rejected for decreasing pressures or energy densities.
* `low_enthalpy_violated` (Eos.lean): C162 fails below the table: with the first pseudo-enthalpy `p / (e + p)` the relation `dp = (e + p) dh` is violated by a factor 5/2 at the first row.
* `causalSpeed_violated` (Eos.lean): C162 fails: speeds of sound above the speed of light are accepted.
* `eosName_violated` (Eos.lean): C162 fails for other names: letters of the extension are removed from the name.
* `determineXmax_violated` (Eos.lean): C162 fails for coefficients that are numbers: without `xmax` the constructor raises an error.
* `sampledRange_violated` (Eos.lean): C162 fails when the adiabatic index is in its range everywhere: the last point of the grid is lost although it is in range.
* `stitched_violated` (Eos.lean): C162 fails when no row after the first one is below the cutoff: the whole table of low densities is put in front.
* `plot_k2_violated` (Eos.lean): C162 fails for the second Love number: there are no units for it, so that it cannot be plotted.
* `family_violated` (Tov.lean): C163 fails when the refined maximum has the mass of the star before: two stars of equal mass remain, and masses cannot be interpolated.
* `lastThree_violated` (Tov.lean): C163 fails when already the second mass is smaller: the parabola uses the last point of the grid with the mass of the second star.
* `strainSame_notches_violated` (StrainExport.lean): C164 fails for the list of notches: data with different notches are equal when the strain in the band is.
* `strainSame_read_violated` (StrainExport.lean): C164 fails for data in the time domain: an object and a copy from which the strain has been read in the frequency domain differ, since reading stores the window factor.
* `notchListArg_violated` (StrainExport.lean): C164 fails for lists of notches: a pre-made list that is not empty is rejected, and so are pairs that are not tuples.
* `lowPass_violated` (StrainExport.lean): C164 fails when the strain has been read or set in the frequency domain: it is not filtered, and the two domains disagree.
* `toFrequencySeries_violated` (StrainExport.lean): C164 fails for an odd number of samples: the exported spacing is not that of the frequency array.
* `safeDuration_violated` (Segments.lean): C165 fails for "rounded up to the nearest power of two": a chirp time that is such a power is doubled.
* `injectGwpy_short_violated` (Segments.lean): C165 fails for data that are too short: they are accepted like all others.
* `injectGwpy_wrap_violated` (Segments.lean): C165 fails for arrival times outside the data: a signal one segment later is injected in the same place.
* `injectMeta_violated` (Segments.lean): C165 fails for the matched-filter signal-to-noise ratio: it is computed without the injection. In data without noise the stored value is zero, while that of the data with the injected signal is the optimal one.
* `checkDuration_round_violated` (Segments.lean): C165 fails by rounding: a signal that is longer than the data passes, and one that fits into them is rejected.
* `checkDuration_missing_violated` (Segments.lean): C165 fails for parameters that cannot be converted, which pass silently even if errors are asked for, and for those with one mass, which are an error even if none is asked for.
* `fakeStart_violated` (Segments.lean): C165 fails for shorter segments: they begin after the event.
* `loadCache_violated` (Segments.lean): C165 fails for a frame that is exactly the segment: it is said not to contain it.
* `channelDetector_violated` (Segments.lean): C165 fails for channels with a further colon in the name: the part before the last colon is taken for the detector.
* `parse_violated` (DetectorFiles.lean): C166 fails for lines of white space and for comments that are indented: they are errors, as is everything without an equality sign.
* `emptyIfo_violated` (DetectorFiles.lean): C166 fails for a file with an unknown shape: the detector is said not to be implemented.
* `psdSame_violated` (DetectorFiles.lean): C166 fails after an assignment to the frequency array: the object then equals another one, but has a different density.
* `perDetector_phase_violated` (LikelihoodSetup.lean): C167 fails for the values of the detectors with marginalisation over the phase: of two detectors with opposite data they add up to more than the likelihood ratio.
* `perDetector_failed_violated` (LikelihoodSetup.lean): C167 fails for a waveform that fails: the likelihood ratio has the lowest value, the values of the detectors are an exception.
* `setup_second_violated` (LikelihoodSetup.lean): C167 fails for a second likelihood from the same priors: the first one has fixed them, so the second is an error.
* `setup_distance_violated` (LikelihoodSetup.lean): C167 fails for the distance: although the default is announced, there is none, and the construction ends with a `KeyError`.
* `syncAttr_violated` (LikelihoodSetup.lean): C167 fails for "if they differ, raise an error": a generator with another value is changed.
* `setFrame_violated` (LikelihoodSetup.lean): C167 fails for detectors with longer names: the text is cut after two and four characters.
* `deltaFEnd_violated` (BandedSetup.lean): C168 fails for a prior that ends close to the end of the data: the scale of the taper is then negative.
* `standard_violated` (BandedSetup.lean): C168 fails for the values without a prior: for the standard prior of the documentation the time offset is too short and the scale of the taper too small, both by little.
* `weights_order_violated` (BandedSetup.lean): C168 fails for weights in another order: without the highest mode the largest frequency cannot be set.
* `maximumFrequency_violated` (BandedSetup.lean): C168 fails for a waveform that fails: instead of the `ValueError` that the code prepares there is a `TypeError`, and a signal that vanishes is an `IndexError`.
* `findMaximum_jitter_violated` (BandedSetup.lean): C168 fails for parameters without a fiducial value, as the jitter of the time that marginalisation over time adds to the priors: a `KeyError`.
* `findMaximum_violated` (BandedSetup.lean): C168 fails for the likelihood of the parameters found: although the search maximises with the present fiducial signal, with the new one the likelihood ratio can be less than at the start, and the parameters are returned nevertheless.
* `gwCycle_fails_violated` (ProposalCycles.lean): C169 fails for priors sampled in total mass and the spin of the second body, for fixed calibration parameters, for fixed spins in the plane and for sampling of calibration alone: each is valid for the sampler, and the cycle for gravitational waves cannot be built.
* `gwCycle_covers_violated` (ProposalCycles.lean): C169 fails for a sampled parameter whose name contains `recalib` without the underscore: the cycle is built and no proposal moves it.
* `removeAll_violated` (ProposalCycles.lean): C169 fails after the removal of all proposals of the default cycle: the cycle cannot be built.
* `drawCycle_misses_violated` (ProposalCycles.lean): C169 fails for a promise that each proposal occurs in the drawn cycle: the draws may all be of the first one.
* `phaseKey_fixed_violated` (ProposalCycles.lean): C169 fails when the phase has a fixed prior and `delta_phase` is sampled: the reversal is in the cycle with the key `phase`, which is not in the samples, and its call ends with a `KeyError`.
* `jump_inclination_violated` (ProposalCycles.lean): C169 fails when `delta_phase` and `psi` are sampled and the inclination is fixed: the jump is in the cycle, and its call ends with a `SamplerError`.
* `validate_none_violated` (ProposalCycles.lean): C169 fails for the promise of a Boolean: without `error` and `warning` the result for signals that are too long is `None`.
* `validate_samples_violated` (ProposalCycles.lean): C169 fails for signals that the samples do not include: the validation succeeds for samples within a prior that has longer signals.
* `repr_nested_violated` (Repr.lean): C17 fails for nested brackets: one argument `a` with the balanced value `F(x=G(y=1,z=2),w=3)` is read back as two arguments.
* `repr_double_removal_violated` (Repr.lean): C17 fails for brackets that open and close in different pieces: the value `F(x=1,y=(2,3))` followed by another argument. The pieces between are removed twice, and with them the argument `b`.
* `repr_list_violated` (Repr.lean): C17 fails for lists: `values=[1,2]` cannot be read back unless the class has a second argument name, and is then read as two arguments.
* `repr_space_violated` (Repr.lean): C17 fails for strings with a space: `unit='a b'` is read back without it.
* `evaluate_fixed_violated` (GridEval.lean): C170 fails for a fixed parameter on a grid given by one number of at least two points: all its points are the same, and the evaluation ends with a `TypeError`.
* `evaluate_list_violated` (GridEval.lean): C170 fails for points given as a list of Python numbers, which the documentation allows: the comparison of a number with a list has no match.
* `gridFile_label_violated` (GridEval.lean): C170 fails for the label of a grid that is made without saving: a label given to the constructor is dropped, and a later call to save it in a directory is an error. The same holds for a grid that has been read.
* `gridFile_lost_violated` (GridEval.lean): C170 fails for a save that is not possible: for a grid without a likelihood the older file is moved away before the error, or removed.
* `fft_one_band_violated` (MultibandFft.lean): C171 fails if the first band reaches beyond the frequencies of the detector, as the only band does when the maximum frequency is the Nyquist frequency: the evaluation raises an error, while with linear interpolation the squared norm is the usual one.
* `diff_default_violated` (WalkProposals.lean): C172 fails without the argument `scale`: the documented default is `2.38 / √(2 n)`, and the function takes 1.
* `proposals_iterables_violated` (WalkProposals.lean): C172 fails for a set of proposals, which is meant to be accepted, and for the name of one proposal as a string.
* `pp_end_violated` (PpPlot.lean): C173 fails at the end of the range: an event with the credible level one, or without one, counts in no interval, and not even in the whole range.
* `roq_mb_highest_violated` (RoqMultiband.lean): C174 fails at the highest frequency of the basis: there only the real part of the data counts. With a single band as long as the segment the weight of an element that is one at this frequency vanishes for imaginary data, and the usual product does not.
* `roq_basis_orientation_violated` (RoqSetup.lean): C175 fails if the array itself is in the file: it is read in the other orientation.
* `roq_basis_hdf5_violated` (RoqSetup.lean): C175 fails for a file of the name `hdf5`: it is opened but the parameters in it are not used.
* `roq_nodes_violated` (RoqSetup.lean): C175 fails if nodes are given in both places: those of the weights are used and the others are not compared with them.
* `mcmc_no_resume_violated` (McmcRestart.lean): C176 fails if no restart is wanted: an old check point with other tempering inputs still stops the run.
* `mcmc_settings_violated` (McmcRestart.lean): C176 fails for the other settings: a restart keeps the proposal cycle, the choice of the likelihood, the method of the evidence and the normalisation of the prior of the check point, whatever is asked for.
* `mcmc_time_violated` (McmcRestart.lean): C176 fails for longer runs: the reported time is always less than a day; a run of a day and a minute is said to take a minute.
* `figure_frequencies_violated` (PosteriorFigures.lean): C177 fails for the number of about 4000 frequencies: nearly twice as many can be drawn.
* `figure_mean_violated` (PosteriorFigures.lean): C177 fails for pictures: the line drawn is the mean, and it can lie outside the band.
* `figure_injection_violated` (PosteriorFigures.lean): C177 fails for the injection: with the usual frequencies the factor is larger than one for every band, so that the waveform with the parameters of the injection is not drawn on the injection.
* `figure_bars_violated` (PosteriorFigures.lean): C177 fails for skewed posteriors: the figure of the calibration is not made.
* `figure_level_violated` (PosteriorFigures.lean): C177 fails for other levels: the band of the calibration is always that of 90 %.
* `corner_list_violated` (ResultFigures.lean): C178 fails for a list of parameters of a result with an injection: its values are not drawn.
* `corner_off_violated` (ResultFigures.lean): C178 fails for values that are turned off: with a dictionary of parameters they are drawn.
* `corner_truths_violated` (ResultFigures.lean): C178 fails for a list of values alone: it is an error.
* `corner_single_violated` (ResultFigures.lean): C178 fails for one parameter: no value is drawn.
* `figure_truth_violated` (ResultFigures.lean): C178 fails for `truth=True`: the line is drawn at one, whatever was injected.
* `figure_priors_violated` (ResultFigures.lean): C178 fails for results without priors: asking for the priors, also as samples for arviz, raises instead of leaving them out.
* `figure_walkers_violated` (ResultFigures.lean): C178 fails for one parameter: the figure of the walkers is not made.
* `figure_maximum_violated` (ResultFigures.lean): C178 fails for a posterior with other numbers, as after sorting or leaving out rows: the fit of another row is drawn, or an exception raised.
* `figure_result_labels_violated` (ResultFigures.lean): C178 fails when priors are replaced: the labels stay those of the first.
* `gp_celerite_violated` (GaussianProcess.lean): C179 fails for celerite if `parameters` is replaced by the same values in another order: they go to other parameters.
* `gp_unknown_violated` (GaussianProcess.lean): C179 fails for a name the process does not know: `set_parameters` accepts it, after which the george likelihood raises for ever.
* `gp_mean_violated` (GaussianProcess.lean): C179 fails for mean models of george: they are models of celerite.
* `ptemcee_hot_violated` (PtemceeEvidence.lean): C180 fails for a ladder that does not reach zero, and for one temperature: a log likelihood that is ten everywhere has the log evidence ten, but five and zero are reported.
* `ptemcee_infinite_violated` (PtemceeEvidence.lean): C180 fails for infinite means: they are left out, so that with an infinite mean at the hottest temperature the integral starts at the next.
* `registry_inside_violated` (Registry.lean): C181 fails for a plug-in with the prefix inside its name: it is listed under a name that is not found.
* `registry_capital_violated` (Registry.lean): C181 fails for a plug-in with capital letters in its name: its class is not found under the name listed.
* `fake_missing_violated` (Registry.lean): C181 fails for a file without likelihoods: with the default options the fake sampler raises an exception.
* `fake_stored_violated` (Registry.lean): C181 fails for the likelihoods of the rows returned: they stay those of the file.
* `fake_arguments_violated` (Registry.lean): C181 fails for the arguments of the fake sampler: the class of results, the injection and whether to use the ratio have no effect.
* `roq_failures_violated` (SourceFailures.lean): C182 fails for reduced-order quadratures: the error that is caught is followed by another one.
* `dictionary_caller_violated` (SourceFailures.lean): C182 fails with a dictionary of the caller: what a call inserts stays there for calls that do not set it.
* `family_check_violated` (SourceFailures.lean): C182 fails for a family whose maximum mass is the seventh of the eight: it has too few points before the maximum but passes.
* `calculateJs_bits_violated` (FlowTraining.lean): C183 fails for the unit: the result is called a number of bits but is never larger than `ln 2`, and so less than one bit even for disjoint densities.
* `columnJs_range_violated` (FlowTraining.lean): C183 fails for the range of the comparison: what the densities are above the smaller one of the two maxima does not matter.
* `calculateJs_far_violated` (FlowTraining.lean): C183 fails for draws far above the chain: the density of the draws is zero on the whole grid, the distance is not a number, and the parameter is left out. If all parameters are like this the result is zero, as for a perfect fit.
* `train_far_violated` (FlowTraining.lean): C183 fails for draws far above the chain: the training stops after ten epochs as if it had converged, and the flow counts as trained.
* `train_unconverged_violated` (FlowTraining.lean): C183 fails for a training that does not converge: the flow counts as trained nevertheless, after the maximum of epochs.
* `run_retry_violated` (FlowTraining.lean): C183 fails after exceptions: the counter is not reset, a training is started at every proposal, and each one changes the flow by ten steps of the optimiser even if it was trained before.
* `threshold_violated` (FlowTraining.lean): C183 fails for the threshold: it is that of the requested number of samples also if there are fewer of them.
* `couplings_one_violated` (FlowTraining.lean): C183 fails for one coupling: the first parameter would never be changed by it.
* `readList_level_violated` (ResultLists.lean): C184 fails for the levels: one that is not known is treated as "ignore" and not refused.
* `pickleName_directory_violated` (ResultLists.lean): C184 fails for names without an extension in a directory with a dot: the pickled file that is looked for is not the one that was written.
* `readList_partial_file_violated` (ResultLists.lean): C184 fails after a failure that left a part of the file: the file is there, so that the pickled one is not read, and the result is lost from the list or the list refused.
* `construct_default_violated` (ResultLists.lean): C184 fails for the default: without results the constructor raises instead of making an empty list.
* `append_set_violated` (ResultLists.lean): C184 fails for sets of results, which the documentation of `append` allows.
* `combineLevel_violated` (ResultLists.lean): C184 fails for the level of the list: `combine` uses its own and replaces that of the list, so that the level given to the constructor never matters.
* `combinedErr_equal_violated` (ResultLists.lean): C184 fails for equal runs: however many there are the error of the mean is that of each.
* `combinedErr_negative_violated` (ResultLists.lean): C184 fails if one of two errors is not finite: the number of all runs is used with the sum over one, and an error below a third is negative.
* `saved_max_act_violated` (ResultAttributes.lean): C185 fails for `max_autocorrelation_time`: a result that has it loses it when it is saved and read, in both formats.
* `labels_without_priors_violated` (ResultAttributes.lean): C185 fails for labels given without priors: they are replaced by the search keys, here `None`.
* `hdf5_no_posterior_violated` (ResultAttributes.lean): C185 fails for results without posterior in `hdf5`: they are written without complaint and cannot be read; from `json` they can.
* `hdf5_class_violated` (ResultAttributes.lean): C185 fails for classes that have left their module: reading raises although a missing module is passed over.
* `summary_empty_violated` (ResultAttributes.lean): C185 fails for the empty summary, meant for results without posterior: there the summary raises, and it is never empty.
* `written_overwrites_violated` (ResultAttributes.lean): C185 fails for a real column named like a modulus: it is overwritten.
* `sample_new_entry_violated` (McmcSets.lean): C186 fails for a new samplerAt: it is a key but not among the parameters, until the sample is copied.
* `sample_eq_violated` (McmcSets.lean): C186 fails for equality: samples of different parameters are equal if they have the same values in order.
* `bootstrap_ends_violated` (McmcSets.lean): C186 fails for the last row, which is never drawn, and for the first, which is drawn in the first place alone.
* `pos0_single_violated` (EnsembleSetup.lean): C187 fails for a single parameter: no array is accepted as starting points, whatever its shape.
* `pos0_unchecked_violated` (EnsembleSetup.lean): C187 fails for starting points outside the prior: they are checked, but the answer is not used.
* `prior_eq_nan_violated` (Equality.lean): C188 fails for arrays with an entry that is not a number: such a prior is not equal to itself.
* `interped_eq_violated` (Equality.lean): C188 fails for interpolated priors: the name and the boundary are not compared.
* `dist_eq_violated` (Equality.lean): C188 fails for joint distributions with nearly equal means: comparison is not symmetric, distributions with different means are equal, and infinities of either sign and values that are not a number are not told apart.
* `dist_eq_used_violated` (Equality.lean): C188 fails for joint distributions that were used: if the attribute that holds the parameters drawn so far differs, two distributions made from the same arguments are not equal.
* `spline_eq_violated` (Equality.lean): C188 fails for spline calibration: comparing two models made separately from the same settings raises, as does comparing two detectors that agree in name, geometry and noise and have such models.
* `prior_eq_array_violated` (Equality.lean): C188 fails for an argument that is an array in the second prior alone: the comparison raises, while the other way round it is `False`.
* `reconstruct_sky_violated` (Reconstruct.lean): C189 fails for the sky position in a frame of detectors when the time alone is marginalised: the returned `ra` is the one at the time before the draw, not at the drawn time.
* `jump_reflecting_violated` (Boundary.lean): C19 fails for values an odd number of ranges above the minimum: they stay where they are, outside the range. With range `[0, 1]` the value 3 is not moved.
* `signals_raised_violated` (Process.lean): C190 fails if the method raises: the handler of the sampler stays in place for every signal.
* `signals_platform_violated` (Process.lean): C190 fails where there is no `SIGALRM`: the other two keep the handler of the sampler after the method has returned.
* `logger_second_violated` (Process.lean): C190 fails for a second label: the log goes on in the file of the first.
* `logger_terminal_violated` (Process.lean): C190 fails for a logger that has a file already: since files are streams too, no handler for the terminal is added.
* `command_silent_violated` (Process.lean): C190 fails without output: a command that fails goes unnoticed, also with `raise_error`.
* `autocorrelation_nan_violated` (Process.lean): C190 fails for a chain with a parameter that does not move, whose time is `nan`: instead of no time there is a `ValueError`.
* `distance_zero_violated` (Distances.lean): C191 fails for very small distances: with the distance 0 there is a `CosmologyError`.
* `source_redshift_violated` (Distances.lean): C191 fails with a redshift, without luminosity distance: nothing is computed from it.
* `source_replaced_violated` (Distances.lean): C191 fails for a redshift that is not that of the luminosity distance: it is replaced.
* `source_error_violated` (Distances.lean): C191 fails for a distance out of reach: where a `KeyError` is caught the `CosmologyError` is not, so that nothing is left of the other parameters.
* `result_interferometers_violated` (MetaData.lean): C192 fails for two detectors with one name: there is one entry, that of the second.
* `injection_none_violated` (MetaData.lean): C192 fails for a detector without injection: there are properties, with its name.
* `attribute_none_violated` (MetaData.lean): C192 fails for a likelihood without `meta_data`, which is `None`: instead of an `AttributeError`, or `None` for the injection, there is a `TypeError`.
* `result_object_violated` (MetaData.lean): C192 fails for a sampler given as object: neither the user's entries nor those of the likelihood reach the result.
* `directory_violated` (NestedOptions.lean): C193 fails for a directory given by the user, under the option documented for it: it is read and removed when the sampler is made, reset, and looked for again, in vain, when it is run.
* `ultranest_stored_violated` (NestedOptions.lean): C193 fails for ultranest with a temporary directory: the options that are stored with the result name that directory, which is gone.
* `ultranest_again_violated` (NestedOptions.lean): C193 fails for ultranest that is run twice: with `dlogz` left at its default the second run is a `KeyError`.
* `ultranest_live_violated` (NestedOptions.lean): C193 fails for ultranest with a number of live points: limits on the calls and on the fraction that remains, and the callbacks, among them that of bilby, are not used.
* `polychord_defaults_violated` (NestedOptions.lean): C193 fails with `use_polychord_defaults`: none of the other options is used, neither the number of live points nor the seed.
* `dnest_ignored_violated` (NestedOptions.lean): C193 fails for two options of DNest4 that are accepted, since they have a default, but are not passed on.
* `nestle_callback_violated` (NestedOptions.lean): C193 fails for nestle that prints, as it does by default: a callback of the user is replaced.
* `nessai_config_violated` (NestedOptions.lean): C193 fails for nessai with a file of options: what it contains replaces what the user gave.
* `seed_own_violated` (NestedOptions.lean): C193 fails for a seed given under the name the sampler has for it: bilby's own generator keeps its random state.
* `decode_inner_violated` (Decode.lean): C194 fails for objects inside others: a prior with an array is made from the encoded array.
* `decode_list_violated` (Decode.lean): C194 fails for objects in lists: they stay encoded.
* `cosmology_name_violated` (Decode.lean): C194 fails for the name of a cosmology and its meta data: they are not written.
* `cosmology_class_violated` (Decode.lean): C194 fails for a class that is not in astropy: the file with it cannot be read.
* `package_pip_violated` (Decode.lean): C194 fails if pip does: the error ends the run, where one of conda is passed over.
* `detector_pickle_directory_violated` (SavedDetectors.lean): C195 fails for a directory that is not there: another one is made, and the detector is not saved.
* `detector_pickle_label_violated` (SavedDetectors.lean): C195 fails without a label, where the name of the detector should be used.
* `triangular_pickle_violated` (SavedDetectors.lean): C195 fails for triangular detectors: they are lists of detectors, saved by the method of lists, but cannot be read as such.
* `data_names_violated` (SavedDetectors.lean): C195 fails for different labels: files of one detector with a label are those of another one without.
* `data_directory_violated` (SavedDetectors.lean): C195 fails for a directory that does not exist: unlike for pickles it is not made.
* `density_window_violated` (SavedDetectors.lean): C195 fails for the windowed data themselves: the window is counted twice.
* `weights_name_violated` (SavedDetectors.lean): C195 fails for names, or directories, that contain the format: there is no extension, and the file is only read with the format given.
* `weights_npz_name_violated` (SavedDetectors.lean): C195 fails for such names and npz: the file has another name than the one that was given and logged.
* `sampler_constraints_violated` (SamplingConstraints.lean): C196 fails for a conversion given by the user, where fixed parameters are not filled in: a constraint on a quantity that needs one is not applied by samplers, although no draw from the priors violates it.
* `constraint_unknown_violated` (SamplingConstraints.lean): C196 fails for constraints on quantities that the conversion does not give, or with another name: they are passed over.
* `fill_order_violated` (FillPriors.lean): C197 fails for compact binaries: the missing keys are a set of strings, whose order changes from one process to the next. With a prior of the chirp mass and defaults for both component masses, the filled dictionary samples in `mass_1` for one order and in `mass_2` for the other.
* `fill_fixed_masses_violated` (FillPriors.lean): C197 fails for fixed parameters: the chirp mass and the mass ratio are fixed, which fixes both component masses, and still both get their default priors and are sampled.
* `as_array_single_violated` (FillPriors.lean): C197 fails with a constraint among the keys and one draw: it raises a `KeyError`.
* `as_array_many_violated` (FillPriors.lean): C197 fails with a constraint among the keys and several draws: the constraints are deleted from the list of the caller, and the array has rows for the other keys only.
* `as_array_empty_violated` (FillPriors.lean): C197 fails for several draws of constraints only (or of no key at all): it raises an `IndexError`.
* `reflective_walk_keeps_prior_violated` (WalkInvariance.lean): C199 fails with reflective parameters: with two of them, a flat likelihood and live points at `(1/4, 1/4)` and `(3/4, 3/4)`, the quarter `(1/2, 1] × [0, 1/2)` of the unit square has a probability of at most one eighth after one step of differential evolution from the uniform law, with the default mixture, whatever the scale and the law of the Gamma numbers, for either order of the two points.
* `chain_negative_index_violated` (Chain.lean): C20 fails for a negative index one beyond the start: instead of an error, a row that was never appended is returned (the last row of the storage block).
* `nameless_label_violated` (PriorLabels.lean): C200 fails for priors without name that have a unit: the label is the word `None` with the unit, also in figures, where without a unit it is the key; legends and figures of chains have no label but `None` in either case.
* `renamed_label_violated` (PriorLabels.lean): C200 fails for priors whose name is changed: the label stays that of the old name; a prior that gets its name later has no label.
* `label_table_violated` (PriorLabels.lean): C200 fails between processes: the same constructor gives different labels, and hence unequal priors, before and after the package for gravitational waves is imported, whose table it uses.
* `result_labels_stale_violated` (PriorLabels.lean): C200 fails for a result to which other priors are assigned: it keeps the labels of the first ones, so that figures show a unit which the prior does not have; without priors the keys replace labels that were given.
* `reference_frequency_defaults_violated` (PriorLabels.lean): C201 fails for arguments that the source model has defaults for: without the approximant, or without the frequencies for an approximant with spins at the lowest frequency, a `KeyError` is raised, also if the frequencies in use are equal.
* `estimate_of_impossible_constraints_violated` (Normalization.lean): C203 fails for constraints that no row satisfies: the estimate, and with it the probability of any sample, never comes.
* `estimate_single_rows_violated` (Normalization.lean): C203 fails for chunks of one row: the estimate is one whatever the constraints.
* `factor_scattered_violated` (Normalization.lean): C203 fails for estimates that scatter more: nine estimates of 2 and one of 22, whose mean is 4, are rounded to tens, and the factor is zero.
* `rejection_reweighted_violated` (RejectionLaw.lean): C204 fails in general, since the largest weight is that of the rows at hand: a single row is kept whatever its weight, so that it follows the law it was drawn from and not the reweighted one.
* `reweighted_evidence_violated` (ReweightLaw.lean): C205 fails if the new model has parameters that the old one does not allow: their part of the evidence is missing.
* `hyper_log_violated` (HyperLaw.lean): C206 fails for the logarithm itself, which is what is returned: for one event with two values of the parameter, one sample, and a population that prefers one of the values, its mean is not the logarithm of the ratio of the evidences (the exponential has the right mean, as the assumptions of `hyper_unbiased` hold there).
* `combined_mean_violated` (CombineLaw.lean): C207 fails for runs with different numbers of rows: of two runs with the same evidence, one with a row where the parameter is zero and one with two rows where it is one, all rows are kept whatever the draws, and the mean is two thirds where the mean of the runs' means is one half.
* `restart_frozen_violated` (ConvergenceRun.lean): C208 fails with `stop_after_convergence`: chains that were marked as converged stay so in the restart and take no step, so a restart that asks for more samples than the chains have steps never stops, for any number of chains, messages and data.
* `restart_never_stops_violated` (ConvergenceRun.lean): C208 fails with `stop_after_convergence`, an instance: a run for 60 samples stops, and a restart of it for 100 samples never does.
* `mcmc_threads_violated` (McmcOptions.lean): C209 fails for the other names of the number of processes: `threads=4` is translated to `npool`, which is then removed as it is no default, so that one process is used.
* `mcmc_target_violated` (McmcOptions.lean): C209 fails for `target_nsamples`, the name under which the number of samples is reported: it is not an option, and a value given for it has no effect.
* `ensemble_infinite_likelihood_violated` (Mcmc.lean): C21 fails for the ensemble step when the likelihood of the proposal is `+inf`: from any valid chain at a positive inverse temperature the proposal is recorded, whatever the (finite) prior, log factor and uniform draw are.
* `swap_continuation_violated` (Mcmc.lean): C24 fails in every reachable state: after an accepted swap the next step of each chain walks from the sample the chain itself held before the swap, not from the one it received.
* `ladder_crossing_violated` (McmcAdapt.lean): C25 fails at the hot end: a strictly decreasing ladder of three (temperatures 1, 2, 2.05) becomes, after the first adaptation with acceptance ratios 1 and 0 and the default constants, a ladder that is not decreasing.
* `uniform_proposal_violated` (McmcAdapt.lean): C27 fails for every finite width, range, draw and sample: the proposed value is the old one, so the draw is never used and the proposal never moves.
* `track_walk_violated` (NestedWalk.lean): C29 fails when `nact` exceeds `maxmcmc`: the walk gives up before the autocorrelation estimate exists and returns a random point below the threshold, while reporting two accepted moves.
* `act_walk_equal_violated` (NestedWalk.lean): C29 fails in the boundary case of the cached walk: whatever remains in the cache, a cached point whose log likelihood equals the threshold of the next call is returned, so it is not above the threshold.
* `act_walk_no_acceptance_violated` (NestedWalk.lean): C29: the cached walk cannot report "no accepted move": whenever every proposal of a walk is rejected, the attempt to fill the cache raises an exception instead of returning the documented random point.
* `checkpoint_power_loss_violated` (Files.lean): C30 does not extend to power loss: nothing forces the data to disk before the rename, so a system that makes the rename durable first leaves an empty file where a complete checkpoint was.
* `save_fallback_violated` (Files.lean): C31 fails for the fallback: when writing `a.json` raises, an existing `a.pkl` (with overwriting disabled) is replaced and its contents are nowhere afterwards.
* `json_tuple_violated` (Json.lean): C32: a tuple comes back as a list, whatever it contains.
* `json_nested_priors_violated` (Json.lean): C32: a prior dictionary that is not the `priors` attribute of the result itself (one in `meta_data`, say) comes back as a plain dictionary: the encoder's branch for prior dictionaries is never reached, because `json` writes any subclass of `dict` itself.
* `json_frame_index_violated` (Json.lean): C32: a data frame comes back with the index 0, 1, 2, …, whatever index it had (a posterior from which rows were dropped, for instance).
* `json_key_violated` (Json.lean): C32: a dictionary with an integer key comes back with a string key.
* `json_key_collision_violated` (Json.lean): C32: of an integer key and the same number as text only one entry is left, with the value of the later one.
* `json_empty_array_violated` (Json.lean): C32: an array of shape (0, n, …) loses its other dimensions.
* `json_tag_collision_violated` (Json.lean): C32: a user's own dictionary is turned into another object when one of its keys is one of the tags.
* `json_series_violated` (Json.lean): C32: a series with integer labels comes back with text labels.
* `json_lambda_violated` (Json.lean): C32: a function that cannot be found under its name (a lambda or a local function) comes back as its dotted name.
* `hdf5_none_text_violated` (Hdf5.lean): C33: the text `"__none__"` comes back as `None`.
* `hdf5_none_in_list_violated` (Hdf5.lean): C33: `None` inside a list comes back as the text `"__none__"`.
* `hdf5_empty_dict_violated` (Hdf5.lean): C33: an empty dictionary is not written at all, so its key is missing after loading.
* `hdf5_number_list_violated` (Hdf5.lean): C33: a list of numbers comes back as an array, and so does an empty list.
* `hdf5_bool_list_violated` (Hdf5.lean): C33: a list of booleans cannot be saved: the result falls back to a pickle file.
* `hdf5_tuple_violated` (Hdf5.lean): C33: a tuple comes back as a dictionary with the keys "0", "1", ….
* `hdf5_tuple_order_violated` (Hdf5.lean): C33: the elements of a tuple are numbered in order.
* `hdf5_name_clash_violated` (Hdf5.lean): C33: a dictionary cannot be saved if a key with a slash names an entry of another dictionary in it.
* `hdf5_slash_violated` (Hdf5.lean): C33: a key containing a slash comes back as nested dictionaries.
* `hdf5_frame_violated` (Hdf5.lean): C33: a data frame comes back as a dictionary of arrays. Only the posterior is turned into a frame again when a result is loaded; the nested samples stay a dictionary.
* `hdf5_function_violated` (Hdf5.lean): C33: a function or class comes back as a dictionary with its module and name.
* `hdf5_timedelta_violated` (Hdf5.lean): C33: the sampling time comes back as a number of seconds instead of a time difference.
* `hdf5_text_grid_violated` (Hdf5.lean): C33: a two-dimensional array of text is written without an error, but the file cannot be read.
* `hdf5_priors_violated` (Hdf5.lean): C33: a conditional prior dictionary is not one any more after loading from HDF5.
* `save_label_collision_violated` (Naming.lean): C34: an absolute label makes two different (directory, label) pairs share a file, so one result replaces the other.
* `from_pickle_violated` (Naming.lean): C34: a result saved with the extension `pkl` is not where `Result.from_pickle` looks for it when given the same output directory and label: it opens the name ending in `.hdf5`.
* `save_filename_violated` (Naming.lean): C34: a given file name decides how the file is read, but not how it is written: `save_to_file(filename="x.hdf5")` writes JSON (the default extension), which `read_in_result(filename="x.hdf5")` cannot read.
* `weights_resume_violated` (Reweight.lean): C36 fails: whenever the row with the smallest absolute old log likelihood comes after the second row and the second row has a non-zero old log prior, an interruption after the first row makes the resumed call return zero as the log prior of the second row. The same happens without an interruption if the finished call is repeated with its resume file and `n_checkpoint` is at least the number of rows (5000 by default).
* `weights_torn_violated` (Reweight.lean): C36 fails: an interruption while the resume file is written leaves a file that every later call refuses.
* `combine_priors_violated` (Combine.lean): C38 fails for a first result without priors: runs with different priors are combined without complaint, even at the strictest level; in the other order they are refused.
* `joint_nested_violated` (Joint.lean): C40 fails for nested joint likelihoods: `JointLikelihood(JointLikelihood(a), b)` keeps evaluating `a` at its initial parameters, because only the outer level of the parts is re-bound to the shared dictionary. Here `a` has log likelihood `x`, initially `0`; after `x = 1` is written through the outer object its log likelihood is still `0`.
* `joint_fake_sampler_violated` (Joint.lean): C40 fails in `FakeSampler.run_sampler`: it re-binds `likelihood.parameters` instead of updating it, so a joint likelihood is evaluated at its old parameters for every row, whatever the rows are; for example the part `x`, initially `0`, gives `0` for the row `x = 1`.
* `poisson_zero_rate_violated` (Likelihood.lean): C41 fails for the Poisson likelihood when some rate is zero: every data vector, including the certain outcome of no events, gets minus infinity, so the probabilities sum to zero instead of one.
* `frequency_series_odd_violated` (Series.lean): C44 fails for odd `N = sampling frequency × duration ≥ 3`: the frequencies are not spaced by one over the duration (the last one is still half the sampling frequency), and for `N = 3 mod 4` there is one more than the real FFT of `N` samples has.
* `time_series_short_violated` (Series.lean): C44 fails for products that are short of an integer `N ≥ 2` by at most 1e-14: both functions accept them, but the time series has only `N - 1` samples while the frequency series is that of `N` samples.
* `frequency_recover_odd_violated` (Series.lean): C44 fails for odd numbers of samples: from the frequency series for 1 Hz and 3 s one recovers a duration of 4 s.
* `coupled_time_array_violated` (Coupled.lean): C45 fails when a time array is assigned after the frequency array has been read: the frequency array is not refreshed. At 4 Hz and 2 s, assigning the time array of 2 Hz and 4 s leaves a frequency array of 4 Hz and 2 s.
* `coupled_frequency_array_violated` (Coupled.lean): C45 fails when a frequency array is assigned after the time array has been read: the time array is not refreshed.
* `coupled_rejected_array_violated` (Coupled.lean): C45 fails after a rejected assignment: assigning an unevenly sampled time array raises an exception, but when a time array had been read before, the rejected array is what the getter reports from then on.
* `max_likelihood_violated` (Fisher.lean): C46 fails: the search returns the last finite outcome, because the best value so far is never stored; e.g. after a good start (negative log likelihood 0) a bad one (5) is returned.
* `mass2_chirp_ratio_violated` (Masses.lean): C49 fails for the mass ratio from the secondary mass and the chirp mass (numpy numbers) whenever the mass ratio is below one third: the result is `nan`.
* `lambda_tilde_delta_violated` (Masses.lean): C50 fails at one mass ratio (about 1/50): there the denominators are zero, and two different pairs of tidal deformabilities have the same `lambda_tilde` and `delta_lambda_tilde`.
* `masses_undetermined_violated` (MassDict.lean): C51 fails for a sample whose only mass parameter is the secondary mass: an error is raised although none was asked for (`return` is missing in that branch).
* `masses_secondary_violated` (MassDict.lean): C51 fails for the secondary mass and the chirp mass of a binary with a mass ratio below one third: the primary mass is `nan`.
* `source_comoving_violated` (MassDict.lean): C52 fails for a comoving distance: any source-frame parameter then makes the conversion fail, because the redshift is computed from the luminosity distance in the caller's dictionary, where it is missing.
* `request_after_settings_violated` (Generator.lean): C54 fails after a change of settings: whenever duration times sampling frequency is even before and after, a request, a change of the duration and the same request give the waveform at the old frequencies, spaced by one over the old duration. (The first request is any that works.)
* `request_same_model_violated` (Generator.lean): C54 fails if one function serves as both source models: after a request in one domain, the same request in the other domain returns the waveform of the first.
* `request_edited_violated` (Generator.lean): C54 fails if the caller changes the returned waveform in place: the next request for the same parameters returns the changed waveform.
* `lookup_dictionary_violated` (LookupTable.lean): C55 fails for a dictionary given directly: its table is used whatever its settings, because the test returns a pair.
* `lookup_tolerance_violated` (LookupTable.lean): C55 fails within the absolute tolerance: a file made for the prior that vanishes in the middle is used for the uniform prior, and its table is another one.
* `likelihood_exception_violated` (LikelihoodParams.lean): C56 fails if the evaluation raises after the jitter was added (here, the detectors cannot be evaluated): the caller's geocentric time stays shifted by the jitter.
* `likelihood_time_reference_violated` (LikelihoodParams.lean): C56 fails for other time references and frames in the sense that the dictionary is not left unchanged: `ra`, `dec` and `geocent_time` are added or overwritten.
* `time_sample_parameters_violated` (LikelihoodParams.lean): C56 fails for the reconstruction of the time: it leaves the jitter added to the geocentric time.
* `mask_stale_violated` (FrequencyMask.lean): C57 fails after a change of data: once the mask has been read, `set_from_zero_noise` (and the other `set_from` methods) leave it as it is, whatever the new sampling frequency and duration; and this matters: with a minimum frequency of 0.6 Hz, going from 4 Hz and 1 s (frequencies 0, 1, 2) to 2 Hz and 2 s (frequencies 0, 0.5, 1) leaves a mask of the right length that selects 0.5 Hz.
* `maximum_frequency_lost_violated` (FrequencyMask.lean): C57 fails for the maximum frequency: reading it (or the mask) with data of low sampling frequency lowers it for good. A maximum of 1024 Hz with data at 4 Hz becomes 2 Hz, and stays there for later data at 4096 Hz.
* `notch_appended_violated` (FrequencyMask.lean): C57 fails for notches added to the list in place: a mask that has been read does not change.
* `psd_segment_kept_violated` (PsdSegment.lean): C59 fails for every segment: for data that start at a time that is not negative (GPS times are positive), nothing is ever removed, wherever the analysis segment lies.
* `hyper_keyword_arguments_violated` (Hyper.lean): C60 fails: the keyword arguments of `prob`, documented as the population parameters, are not looked at. Whatever is passed, the result and the state afterwards are those for no keyword arguments.
* `hyper_other_data_violated` (Hyper.lean): C60 fails with the default cache: the model is evaluated on one data set and then, with the same parameters, on another; the second result is that of the first data set.
* `posterior_weights_violated` (Hyper.lean): C60 fails for a sampling prior given as a function (the likelihood wraps it in a population model with cache): two posteriors with samples 1 and 4 have sampling priors 2 and 8, but both get the weight of the first.
* `sampling_time_violated` (RunSampler.lean): C61 fails for a sampler that sets a number of seconds: it is taken for days.
* `injection_conversion_violated` (RunSampler.lean): C61 fails: the conversion function is applied twice in a new run.
* `counter_overflow_violated` (Counter.lean): C62 fails beyond 32 bits: incrementing a counter that stands at 2³¹ − 1 gives −2³¹.
* `polychord_nlives_violated` (SamplerKwargs.lean): C63 (violated for polychord): `nlives` is an argument of polychord of its own, but a value given for it becomes the number of live points.
* `in_plane_spin_violated` (Spins.lean): C65 fails for a zero spin given by its aligned and in-plane components (Python floats): the conversion divides by zero.
* `time_strain_stale_violated` (StrainDomains.lean): C66 fails for the three methods that keep the time-domain strain: whenever there is one, either supplied or read before, the time-domain strain returned after new frequency-domain data were supplied is the old one.
* `window_factor_stale_violated` (StrainDomains.lean): C66 fails for the window factor: it belongs to the windowed time-domain data, but `set_from_zero_noise` and `set_from_power_spectral_density` leave it as it was.
* `slab_spike_setter_violated` (SlabSpike.lean): C68: assigning `spike_height` after construction leaves a stale split point, after which `rescale` and `cdf` of the same object disagree off the spike.
* `slab_spike_location_violated` (SlabSpike.lean): C68: assigning `spike_location` moves the spike of the density and of the cdf, but not the split point of `rescale`: afterwards `rescale` and `cdf` of the same object disagree off the spike.
* `walks_few_live_violated` (NestedWalk.lean): C69 fails with fewer than ten live points: every update raises a division by zero.
* `diff_current_violated` (NestedWalk.lean): C70 fails: if the current point is a live point (as it always is with `bound='live'`), it is among the points offered for the difference, because the result of the removal is discarded.
* `signal_during_dump_violated` (Files.lean): C71 fails when the state changed between the two dumps: bytes of the interrupted dump overwrite the middle of the complete file written by the signal handler, because both use the same temporary file.
* `save_mutates_violated` (Files.lean): C72 fails: saving replaces a callable setting of the in-memory result by the text of the whole dictionary.
* `reweight_input_violated` (Reweight.lean): C73 fails: for every successful call, the log likelihood and log prior columns of the *input's* posterior hold the new values afterwards, its prior dictionary has the new entries, and its meta data carry the flag.
* `reweight_bayes_factor_violated` (Reweight.lean): C74 fails: the Bayes factor of the reweighted result is the one of the input, whatever the evidence becomes; so it is inconsistent whenever the mean weight is not one.
* `fisher_order_violated` (Fisher.lean): C76 fails for a point given as a dictionary in another order: the mean of the column `a` is the value of `b`.
* `noise_likelihood_violated` (GwLikelihood.lean): C78 fails if the data change after the first call (as by injecting a signal): the log likelihood is then not that of the residual, here for the zero signal.
* `phase_reconstruction_violated` (PhaseMarg.lean): C80 fails for the convention the method documents (`mu(phi) ∝ exp(-2i phi)`): at the second point of the phase grid, the tabulated log posterior of a signal with inner product `i` differs from the log likelihood ratio by more than a constant (at the first point they agree).
* `rescaled_signal_violated` (DistanceMarg.lean): C81 fails for a signal computed at another distance than the reference distance: reconstructing the distance leaves a signal whose amplitude is not that of the new distance.
* `time_reconstruction_calibration_violated` (CalibMarg.lean): C82, C83 fail: the reconstruction of the time takes the signal without the response curve that was drawn before; here the curve is 2, so the inner product of the reconstruction is half of the one for the parameters with `recalib_index` (the duration is 4, so that the factor `4/T` is one).
* `time_array_nyquist_violated` (TimeMarg.lean): C82 fails for the highest frequency: with the mask on there, the first entry of the array is not the inner product with the signal.
* `time_marginal_violated` (TimeMarg.lean): C82 fails: the prior is uniform on `[0.5, 1.5]`, so of the times 0, 1 of the grid's steps only 1 counts, and the signal delayed by 1 has likelihood ratio `exp(-3)`; the code returns the likelihood ratio of the signal that is not delayed.
* `time_reconstruction_violated` (TimeMarg.lean): C82 fails for durations other than 4: with the duration 2, the reconstruction uses half the inner product.
* `calibration_jitter_violated` (CalibMarg.lean): C83 fails with time jitter: the likelihood was evaluated with the jitter added to the geocentric time, the response curves are weighed without.
* `npool_cpnest_violated` (SamplerKwargs.lean): C84 (violated for cpnest): `run_sampler(npool=4, sampler="cpnest")` works with one thread, the default of `nthreads`: the base class keeps `npool` for itself before the arguments are translated.
* `ultranest_resume_violated` (SamplerKwargs.lean): C84 (violated for ultranest): asking to resume and asking not to resume have the same effect, the run starts anew.
* `marginalized_default_violated` (SamplerKwargs.lean): C85 (violated): without a prior for a marginalised parameter the check passes, and afterwards the default prior is filled in, so that the parameter is sampled.
* `joint_ln_prob_stale_violated` (JointPrior.lean): C86: the negation without the assumption on the state: one earlier call for one parameter is enough for a later evaluation of a whole sample to use the old value.
* `joint_rescale_order_violated` (JointPrior.lean): C86: the negation, parameters in another order: the image is not reordered.
* `joint_rescale_apart_violated` (JointPrior.lean): C86: the negation, another parameter between: its value is given to the wrong parameter.
* `joint_sample_again_violated` (JointPrior.lean): C86: the negation for part of the parameters: a second draw of one parameter is the first one again.
* `joint_sample_mixed_violated` (JointPrior.lean): C86: the negation for part of the parameters: the next whole sample has coordinates of two draws.
* `mvg_sigmas_alone_violated` (JointPrior.lean): C87: the negation, standard deviations without a correlation matrix: they are ignored, the covariance matrix is the unit one.
* `mvg_corr_alone_violated` (JointPrior.lean): C87: the negation, a correlation matrix without standard deviations: it is ignored.
* `mixture_normalised_violated` (JointPrior.lean): C87: the negation for several modes: `prob` integrates to the number of modes.
* `mixture_weights_violated` (JointPrior.lean): C87: the negation for several modes: `ln_prob` does not depend on the weights.
* `eig_repeated_violated` (JointPrior.lean): C87: the negation if two eigenvalues agree: what `numpy.linalg.eig` promises allows eigenvectors that are not orthogonal, and draws then do not have the density of `prob`.
* `bounds_many_violated` (JointPrior.lean): C88: the negation for several samples: only the first parameter that some sample violates is looked at, so a sample outside the bounds of another one gets a finite value.
* `mass_ratio_cdf_violated` (GwMass.lean): C89: `cdf` is not a distribution function outside the range: negative below, above one beyond the maximum.
* `flat_conversion_input_violated` (GwMass.lean): C90: the result passed in is not left alone: its priors are those of the converted result afterwards, so a second call on it weights by the Jacobian alone.
* `chi_in_plane_cdf_violated` (SpinPriors.lean): C91: `cdf` of the in-plane prior falls to zero above the largest in-plane component.
* `aligned_range_upper_violated` (AlignedSpin.lean): C92: for tilts beyond a right angle the range misses the smallest magnitudes: it ends below products that occur.
* `aligned_range_lower_violated` (AlignedSpin.lean): C92: for tilts below a right angle and magnitudes bounded away from zero it starts above products that occur.
* `aligned_spike_violated` (AlignedSpin.lean): C92: for a magnitude and a cosine both uniform on `[0, 1]` nearly all of the prior probability is in the first of the 799 grid cells: the prior says the aligned spin is at most 1/799 with probability above `1 - 10⁻²⁰`; it is at most a tenth.
* `component_mass_bound_violated` (MassBounds.lean): C93: with mass ratios above one in the prior a component mass can be below `minimum_component_mass`.
* `redundant_ratios_violated` (Redundancy.lean): C94: the check passes a sampling set with both mass ratios, each of which determines the other.
* `redundant_fixed_violated` (Redundancy.lean): C94: it passes a sampled chirp mass beside two fixed component masses, which determine it.
* `redundant_chirp_violated` (Redundancy.lean): C94: with both mass ratios sampled `test_redundancy` calls a chirp mass redundant, so that no default prior is added for it, although it is not determined.
* `cosmo_unit_violated` (Cosmological.lean): C95: with another unit than Mpc the table is still in Mpc: a prior asked for from 1 to 5 units of 1000 Mpc has a minimum (990) above its maximum (5).
* `cosmo_corresponding_unit_violated` (Cosmological.lean): C96: asked for in another unit, the corresponding prior keeps the numbers in Mpc: the range from redshift 1 to 5 becomes one from 1 to 5 units of 1000 Mpc, as if the lower redshift were 1000.
* `set_cosmology_violated` (Cosmological.lean): C98: `set_cosmology` does not set the default: `get_cosmology()`, which the priors and conversions call, goes on to return the Planck 2015 cosmology whatever was set before.
* `healpix_ln_prob_violated` (HealPix.lean): C99: with several samples all get the value of the first one.
* `healpix_density_violated` (HealPix.lean): C99: the density is one per solid angle, not one of right ascension and declination: for the uniform map of any resolution its integral over the two is `π / 2`.
<!-- end -->
