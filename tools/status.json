{
"C01": [
"proved",
"complete outcome of _process_weights_values for one weight per value, for length mismatches and for refused argument shapes"
],
"C02": [
"partial",
"complete decision for lists, tuples and numpy arrays; normalisation and scale invariance proved; proved false: a numpy array of zeros is accepted (nan weights) and drops every component, leaving a mixture that can be built but not sampled"
],
"C03": [
"partial",
"holds for lists, numpy arrays and plain numbers; proved false for tuples (AttributeError)"
],
"C04": [
"proved",
""
],
"C05": [
"proved",
"Lebesgue measure of the draws that pick component i equals its weight, for both strategies; whole calls: independent samples with P(A) = sum of w_i nu_i(A)"
],
"C06": [
"partial",
"proved false for accepted weights with sum below 1 (IndexError for n > 100, with the exact probability); proved for draws within the total and for the small strategy; see C104 for the whole call"
],
"C07": [
"proved",
"zero-weight components are dropped; whole calls do not depend on them at all"
],
"C08": [
"proved",
"over plain (hashable) items; Counter's == is equality of the item type"
],
"C09": [
"proved",
"C09_law: the law of the samples of zero_inflated."
],
"C10": [
"partial",
"proved false (omitted last weight is appended to the caller's list); exact characterisation of when it happens"
],
"C100": [
"partial",
"Proved for >, >=, < and <= (ideal generator of C86); proved false for == and !=, which estimate the probability of <="
],
"C101": [
"proved",
"the distribution has no bounds of its own; with own bounds see C101_own_or_call"
],
"C102": [
"proved",
"IEEE rounding not modelled"
],
"C103": [
"proved",
"single core, no cached events"
],
"C104": [
"partial",
"Proved for up to 100 samples and for weights with a sum of at least 1 (and the others below 1). FALSE for more than 100 samples of two or more components with a sum t below 1: IndexError with probability exactly 1 - t^n."
],
"C105": [
"proved",
"For expressions whose law is given by Denotes. C105_same_law_iff: same samples exactly when the laws are equal. C105_not_double: x + x and 2 * x differ."
],
"C106": [
"proved",
"For continuous members without bounds, when target scores do not tie (C97)."
],
"C107": [
"partial",
"The bounds passed in the call itself always hold (C107_call: any caches, files, cores). The distribution's own bounds hold when bounds are in order and (second half) no cached call passes bounds; the bounds of the first cached call leak into all later ones (C107_leak_fails, C107_constant_fails), and on a cache hit the distribution's own bound can be exceeded when bounds contradict (C107_own_bound_on_hit_fails)."
],
"C108": [
"proved",
"The text is proved for digits=0; how a float prints (digits > 0) is not modelled."
],
"C109": [
"proved",
"The choice through Counter for lists of 100 or more items is C95; resolving twice is stated for shorter lists, where both constructors process the items alike."
],
"C11": [
"partial",
"proved for every expression except correlated variables (C33) and the t-distributions whose sampler is irregular (Obj.Regular); proved false for those t-distribution cases"
],
"C110": [
"proved",
"the mean and variance rules for all the listed distributions and operations, under the documented laws of numpy's primitives (C110_generator shows that a generator with these laws exists); sampled t distributions, powers and quotients of distributions are not among the rules"
],
"C111": [
"proved",
"for every law the model knows (Denotes); a version for models whose mean and variance are worked out by hand (C111_model_mean)"
],
"C112": [
"proved",
"Chances of being below a threshold for every model built by the listed rules, from numpy's documented laws; plus the fraction of samples and percentiles. gamma, beta, chisquare and pert have no closed distribution function and are left out, as are sums of two distributions."
],
"C113": [
"proved",
"Enumeration of outcomes for models with finitely many of them; an exploding die has infinitely many outcomes and is C94."
],
"C114": [
"proved",
"README examples worked out: alarm network, Monty Hall, bags of dice. The README's ~0.27 for the alarm network is 0.284 exactly."
],
"C115": [
"proved",
"sums of non-negative floats; the result need not sum to 1 exactly (C115_not_exact)"
],
"C116": [
"proved",
"lists of up to 2^p/100000 weights"
],
"C117": [
"partial",
"the bound on the chances is proved; that no call fails is violated by the code (C117_rounding_fails), and the chance of failing is bounded (C117_failure)"
],
"C118": [
"partial",
"the round trip from odds is violated by the code for huge odds (C118_huge_odds_fails); bound for moderate odds proved"
],
"C119": [
"proved",
"numbers before they are rounded for display"
],
"C12": [
"proved",
""
],
"C120": [
"proved",
"uniform numbers are multiples of 2^(-p)"
],
"C121": [
"partial",
"uniform is proved; for pert the code violates the property when the beta draw is 1 (C121_pert_fails), otherwise it is proved (C121_pert_partial)"
],
"C122": [
"proved",
""
],
"C123": [
"proved",
"sd ** 2 is taken as the correctly rounded square"
],
"C124": [
"partial",
"interval and bounds proved; positivity of sd is violated by the code for neighbouring floats (C124_positive_fails)"
],
"C125": [
"partial",
"proved for normal, lognormal and gamma; the code ignores the weight for beta (C125_beta_fails)"
],
"C126": [
"proved",
"ideal generator; relative weights with weights=None (otherwise C80_relative_fails)"
],
"C127": [
"proved",
"for all distributions the model gives a law; the constant is not optimal"
],
"C128": [
"proved",
"Assumes, as an explicit hypothesis (FromStandard), that numpy makes uniform, normal, lognormal, exponential and gamma numbers from standard ones whose stream does not depend on location and scale; met by the example source. Families other than uniform, norm, lognorm, exponential, gamma, bernoulli, pert and const may appear unchanged; the weights of mixtures are unchanged."
],
"C129": [
"partial",
"Proved: success, independence within every batch, convergence, and an error bound c times that of one core for every distribution of tasks. FALSE: with one task per process the variance of the average is exactly c times that of n samples (C129_variance_fails) and the usual error bars are too narrow by the factor sqrt c (C129_error_bars_fails, C129_too_narrow)."
],
"C13": [
"partial",
"full elementwise statement for numeric operands; proved false for boolean + boolean samples of comparisons"
],
"C130": [
"partial",
"Convergence and the error bound 4 c exp(-2 (n/c) (\u03b4 p/(2+\u03b4))\u00b2) hold for every schedule (C130_events, C130_conditional, C130_limit). That n events on c cores are worth n events on one core is false: C130_no_gain_fails shows that with one task per process c\u00b7k events give exactly the answer of k events on one core."
],
"C131": [
"partial",
"Proved: sampling objects equals sampling the written-out tree, and the results of correlate on separate variables are such trees. Missing, because the code fails it (negations proved): variables built from one another, a variable given twice, and kept samples that correlate copies."
],
"C132": [
"partial",
"Proved for every model with one source of randomness (basic distributions, operations with numbers, bounds, functions of each sample, Python functions), for one sample of basic distributions, for mixtures of any models up to 100 samples, and for bayesnet. FALSE for sums of two distributions and for mixtures beyond 100 samples."
],
"C133": [
"partial",
"Proved for several samples, for one sample of + - * / and negation, for means, bounds and chances, and as an extension of the main sampler. FALSE: one sample whose divisor goes through dist_max, dist_min, lclip or rclip gives an infinity instead of raising; a division by zero need not show in the sample."
],
"C134": [
"partial",
"FALSE for two calls: every core makes a joint draw but only the last core's other columns survive and are returned once per core (C134_kept_fails, C134_count_fails, C134_one_core_fails); proved: what each call returns for every schedule, the ends of both results are one joint draw, and one call on an expression of two variables combines values of one joint draw"
],
"C135": [
"proved",
"laws as numpy documents them, exact real arithmetic"
],
"C136": [
"partial",
"Proved: results never depend on verbose; silence below a million samples; bars end exactly with one core, and with several cores when these divide n. FALSE otherwise: with a million samples or more, components of mixtures are sampled with the default verbose, so verbose=False still shows the bars of nested mixtures; with several cores the parent's bar counts (cores-1)*(n mod cores) too far. Lines of text printed around the bars are not modelled."
],
"C137": [
"proved",
"np.percentile as numpy computes it, with any correct rounding after each operation; get_median_and_ci without weights and digits."
],
"C138": [
"partial",
"Accuracy, monotonicity and the statements on bayesnet are proved for every order of additions. FALSE: that the mean lies between the smallest and the largest of the data (C138_between_fails: three times 0.1); proved up to rounding for positive data (C138_between_partial)."
],
"C139": [
"proved",
"Any correct rounding to p binary digits; overflow and subnormal numbers are left out. The error bound is for models without subtraction; C139_cancellation_fails shows that there is none with it."
],
"C14": [
"partial",
"proved for > >= < <=; proved false for == and != (both compute <=)"
],
"C140": [
"partial",
"False in two cases, both proved: with several cores the bar of bayesnet counts beyond its total (C140_bar_cores_fails), and sample announces the in-memory cache when it holds None but samples again (C140_sample_loading_fails)."
],
"C141": [
"partial",
"Exact for results that fit into 64 bits and for single samples without comparisons; false beyond (C141_overflow_fails, C141_single_fails), where the samples are the exact numbers modulo 2^64. Comparisons inside the model are assumed to be between numbers that fit."
],
"C142": [
"partial",
"Exact where every result on the way fits into 64 bits or is computed with a number too wide for them (in particular for sextillion and beyond); false for quintillion (C142_quintillion_fails), where a wide number comes in too late (C142_late_fails), and beyond 2^53 with several cores (C142_cores_fails). Literals from 2^63 up to 2^64 and bounds on arrays of objects are not modelled."
],
"C143": [
"partial",
"Proved for beta, normal and lognormal distributions (law of the result and of its samples), and for laplace with trials and with times. For gamma distributions the claim is false for all parameters (C143_gamma_fails): rates are averaged instead of added."
],
"C144": [
"proved",
"Event function with a loop of N trials; one core, no cached events."
],
"C145": [
"proved",
"Lists keeping at least two probabilities (one alone raises ValueError, C57_single_fails); C145_geomean_fails shows the contrast with geomean"
],
"C146": [
"partial",
"C146_growth and C146_beats for the exact best stake; C146_reported_partial for reported stakes below 1; C146_reported_fails: kelly reports 1.0 for best stakes above 0.9995, which loses everything at the first loss"
],
"C147": [
"proved",
"Digits are the ten ASCII digits. That the call raises on the day before is recorded as a fault under C99."
],
"C148": [
"partial",
"The bounds of the call always hold; all bounds hold if they are in order and no files are left over; law as on one core. Violations proved: crossing bounds give another result on several cores, left-over files break the bounds of the distribution."
],
"C149": [
"proved",
"With memcache=True; C149_fresh_fails shows that the cache is needed."
],
"C15": [
"partial",
"all pipes agree except the one-sided piped clip and piped clip with distribution bounds, which are proved to fail"
],
"C150": [
"proved",
"C150_reads_back for the listed families, C150_norm for normal distributions with any parameters; the _fails theorems give the families whose text cannot be typed in. Categorical distributions and exploding dice are not covered (their printed lists are not modelled)."
],
"C151": [
"proved",
"C151_units, C151_mirror, C151_dominance, C151_close for percentiles; C151_intervals, C151_intervals_mirror for the intervals; C151_weighted with weights."
],
"C152": [
"proved",
"Bytes are modelled for the values listed; bytes, sets, dates and dictionaries with other keys, which msgspec could also write, are outside the model (Model/MsgPack)."
],
"C153": [
"proved",
"Arrays of objects (texts among the samples), which numpy pickles, and numpy's own code are outside the model."
],
"C154": [
"proved",
"OrderOf and the accuracy of log and exp are hypotheses on numpy and libm; infinities and nan are outside"
],
"C155": [
"partial",
"for tiny rates and long times the full property fails (C155_tiny_fails, C155_long_fails); accuracy of log, exp and powers is a hypothesis on the platform's libm"
],
"C156": [
"partial",
"Caches, retry and bayesnet state proved for every failure; with several cores the exception of a worker is lost and left-over files spoil later calls (negations proved)."
],
"C157": [
"partial",
"Accuracy proved for all inputs in range; narrow lognormals collapse to a constant (negation proved)."
],
"C158": [
"partial",
"Returns that do not vary get a huge ratio instead of none (C158_constant_fails)."
],
"C159": [
"partial",
"The total is 100 only up to two roundings, and whole percentages are not exact (C159_total_fails, C159_whole_fails)."
],
"C16": [
"partial",
"exact when samples and bound have one type or n=1; proved false for mixed integers/floats, with the exact truncated result"
],
"C160": [
"partial",
"Percentiles are rounded to decimals before formatting, so small ones are shown as 0 (C160_small_fails)."
],
"C161": [
"partial",
"Near a half the number is not always the nearest (C161_nearest_fails)."
],
"C162": [
"partial",
"Range, accuracy and monotonicity proved; a positive chance can come out as 0 (C162_zero_fails)."
],
"C163": [
"partial",
"Bounds and monotonicity proved up to a few roundings; exceeded by a few roundings in C163_top_fails."
],
"C164": [
"partial",
"Everything proved except that every success raises the count, which fails from 2^(p+2) on (C164_stuck_fails)."
],
"C165": [
"partial",
"whether one value too many is noticed depends on the rounding when the weights sum to 1 (C165_leftover_fails)"
],
"C166": [
"proved",
"at most 15 significant digits, so that the shortest text of the float is the decimal number"
],
"C167": [
"partial",
"the code violates the last sentence (C167_nearest_fails, C167_whole_number_fails)"
],
"C168": [
"partial",
"one and several samples differ at divisor 0 (C168_zero_fails); -2^63 // -1 (C168_edge_fails)"
],
"C169": [
"proved",
"C169_last_fails shows that the limit 2^53 is needed"
],
"C17": [
"proved",
"complete characterisation of sample(f, n) for callables; also shows that numbers mixed with strings are converted by np.array"
],
"C170": [
"proved",
"C170_beyond_fails: with more digits in the data the table can leave their range"
],
"C171": [
"partial",
"Holds while the sum of relative weights is below half the largest float; above the largest float every value is lost (C171_overflow, C171_lost_fails)."
],
"C172": [
"partial",
"Holds for ends up to a quarter of the largest power of two; above, mean and standard deviation can be infinite (C172_overflow, C172_infinite_fails)."
],
"C173": [
"proved",
"Full statement; C173_overflow_fails and C173_underflow_fails show that the exponents of the parts matter."
],
"C174": [
"proved",
"Sums of floats only; integers and numpy numbers among the weights are added without the correction and are not modelled here. The number of values n must satisfy n 2^-p <= 1/100000, and 8 n^2 2^-p < 1 for the theorems about a left-out weight (n below 33 million for doubles)."
],
"C175": [
"partial",
"The full statement, for all floats, is false: C175_extreme_fails. The standard deviations are numpy numbers, as norm(x, y) computes them; with Python floats given as sd= the extreme cases raise instead."
],
"C176": [
"proved",
"Full statement; C176_infinite_fails shows that the exponents of the parts matter."
],
"C177": [
"partial",
"The full statement, accuracy for all floats, is false: C177_small_fails. C177_probability covers all probabilities."
],
"C178": [
"proved",
"Full statement."
],
"C179": [
"partial",
"Uniform in full; for pert a draw of 1 from the beta distribution is excluded (C121_pert_fails) and so are ranges that overflow (C179_pert_fails, C179_wide_fails)."
],
"C18": [
"proved",
"given that numpy's raw generators respect their documented ranges (RawOk in the environment)"
],
"C180": [
"partial",
"The full statement, for all floats, is false: C180_small_fails."
],
"C181": [
"partial",
"Holds for data with finite differences; C181_wide_fails shows that the median of two floats can be infinite otherwise."
],
"C182": [
"partial",
"Means far from the limit of the format are proved finite and accurate; C182_large_fails proves that the mean of twice 2^1023 is infinite."
],
"C183": [
"proved",
""
],
"C19": [
"partial",
"proved for programs without correlated variables and from equal caches; proved false with correlated variables (left-over columns survive set_seed)"
],
"C20": [
"proved",
"for every history and every way of printing distributions (the cache key); cached samples other than Python's None"
],
"C21": [
"partial",
"proved for histories in which no other distribution prints the same; for expressions of numbers, basic distributions, operators and functions the cache key is proved to identify exactly the expressions that differ in grouping, in digits beyond the second of normal parameters or in correlation group (C21_same_key_iff), so every answer is a draw from such an expression; constants other than text are told apart; proved false in general (five families of collisions and a concrete wrong answer)"
],
"C22": [
"partial",
"proved when all cached calls for the key ask for the same n; proved false otherwise"
],
"C23": [
"partial",
"round trip, priorities, reload and absence of side effects proved; proved false for object arrays, and a requested file is ignored when memory holds an entry although memcache=False"
],
"C24": [
"proved",
"exact division; floats beyond 2^53 are not modelled"
],
"C25": [
"partial",
"result, order, count and clean-up proved for every distribution of tasks over processes in a clean directory; proved false for n < cores (FileNotFoundError) and for integer samples (returned as floats)"
],
"C26": [
"partial",
"proved false: with one task per process and cores dividing n the result is one batch repeated cores times; within one process the batches are consecutive parts of the stream"
],
"C27": [
"partial",
"proved for a run that is alone in the directory; proved false for concurrent runs, for stale files with n < cores, for bayesnet after a crash, and after a run whose events cannot be encoded (blocks all later ones)"
],
"C28": [
"proved",
""
],
"C29": [
"proved",
""
],
"C30": [
"partial",
"proved false when draws (or target scores) tie; exact characterisation (permutation iff no value is lost), permutation for distinct scores, first variable exactly unchanged"
],
"C31": [
"proved",
""
],
"C32": [
"proved",
"every history of reads of the group members, with clips"
],
"C33": [
"partial",
"proved false when the number of samples changes or one sample is asked; proved when every call asks for the same n > 1, for reads of one group and for any expressions over any number of groups"
],
"C34": [
"proved",
"heap model with object identity; deepcopy modelled as copying the whole heap; exact eigenvalues"
],
"C35": [
"proved",
""
],
"C36": [
"partial",
"proved false for tolerance 0 and for the identity matrix; otherwise the whole decision is proved"
],
"C37": [
"partial",
"proved false when the correlated variable is inside discrete([...]); exact characterisation for all expressions, and the full statement for expressions without discrete"
],
"C38": [
"proved",
"exact reals; scipy's norm.ppf is any function inverting the standard normal cdf on (0,1), shown to exist"
],
"C39": [
"proved",
"exact reals; the interval of the law of the generated samples"
],
"C40": [
"proved",
""
],
"C41": [
"proved",
"exact reals"
],
"C42": [
"partial",
"proved false: the mean of the law is m + s^2/m, not the requested m; exact condition under which the reported mean is right"
],
"C43": [
"proved",
""
],
"C44": [
"partial",
"proved false for norm with both an interval and a mean; exact acceptance conditions for norm, lognorm and the inverse lognormal"
],
"C45": [
"proved",
"exact reals; beta law of the generator assumed as numpy documents it"
],
"C46": [
"proved",
"Refinement to answerAbout on the used events; frequency form for boolean find."
],
"C47": [
"partial",
"Tame histories (no caller mutation, no failed multi-core run); counterexamples otherwise."
],
"C48": [
"partial",
"Memory cache stability, reload and bypass of the memory cache; memcache=False does not force the file to be read when a memory entry exists (C48_bypass_fails)."
],
"C49": [
"proved",
"Round trip over any history that does not rewrite the file, including refusal above the recorded n; the recorded n can shrink below the number of stored events (C49_recorded_fails)."
],
"C50": [
"partial",
"True for lists returned with conditional_on (any later history); false without find/conditional_on/reduce_fn."
],
"C51": [
"proved",
"Every successful multi-core call in a clean directory; it succeeds when nothing raises; false with left-over files (C51_stale_fails)."
],
"C52": [
"proved",
"All sequences of evidence; also the Bayesian density identity. Exact reals."
],
"C53": [
"proved",
"All families, all sequences, error branches; a successful update never keeps bounds."
],
"C54": [
"proved",
"Range, odds, monotonicity, sequential updates, and Bayes' rule on every probability space."
],
"C55": [
"proved",
"Complete outcome of both conversions and both round trips, for numbers and lists with missing entries"
],
"C56": [
"proved",
"Formula for weights, relative weights and unweighted; bounds, homogeneity for every way of passing values; permutation; values must be positive (log of others is nan)"
],
"C57": [
"partial",
"Holds when at least two probabilities are kept; geomean_odds of a single probability raises ValueError (C57_single_fails)"
],
"C58": [
"proved",
"The succession rule and its time-invariant version give probabilities, are monotone as stated and depend on the ratio of the times only; the outcome of each parameter combination is a table. Real arithmetic."
],
"C59": [
"proved",
"Both conversions are mutually inverse and doubling means doubling; arrays elementwise; error cases."
],
"C60": [
"proved",
"Accepted inputs, the fraction, growth-optimality against every other stake (strict), gains; full/half/third/quarter aliases. Rounding of the reported numbers is part of the model."
],
"C61": [
"partial",
"The property is false of the code: below the market price the fraction is not that of the mirrored bet and can exceed the bankroll (witness 0.1 against 0.9). Proved instead: its exact value and when it does agree."
],
"C62": [
"proved",
"Real arithmetic; 1/2 is excluded from the symmetry as the code treats it as the lower branch."
],
"C63": [
"proved",
"value, range, bounds, monotone, ends, permutation, ranks, affine, labels, entries, digits; empty data unmodelled"
],
"C64": [
"partial",
"valid (non-negative, not all zero) weights; bounded, monotone, scale invariant; full value for distinct data; permutation invariance FALSE with equal data (C64_permutation_fails), proved for distinct data"
],
"C65": [
"partial",
"brackets, coverage, mean bounds proved; the weighted mean clause is FALSE (weights ignored); negative credibility accepted and inverted"
],
"C66": [
"partial",
"FALSE: single percentile with display returns None; rounding before log10; proved for several percentiles and for unrounded logs"
],
"C67": [
"partial",
"custom, histogram and equal-width buckets proved with distinct labels; partition of contiguous buckets; FALSE clauses proved: default arguments raise TypeError, default labels wrong for gaps and for the last histogram bucket, repeated labels drop counts; empty data with normalize unmodelled"
],
"C68": [
"proved",
"The set of uniform numbers on which the event happens has Lebesgue measure p; a distribution as probability is sampled once first; bernoulli likewise (n samples: C81)."
],
"C69": [
"partial",
"p_to_odds, odds_to_p and one sample of every regular expression; proved false for tdist without an interval"
],
"C70": [
"proved",
"Affine invariance for every list of returns and sign flip; value as mean over population standard deviation."
],
"C71": [
"partial",
"proved false in both directions (unary operations, numeric operands; comparisons); exact characterisation"
],
"C72": [
"proved",
""
],
"C73": [
"proved",
"Cholesky factors given by their defining equations; exact arithmetic; quantiles are only taken inside (0, 1)"
],
"C74": [
"partial",
"proved false with a concrete witness; what holds: all copies made by one call stay linked among themselves"
],
"C75": [
"partial",
"proved false for every refusing generator; proved under the parameter conditions that construction does not check, for basic distributions, discrete lists, mixtures with weights summing to at least one, and (unless a roll never ends) exploding dice"
],
"C76": [
"partial",
"proved false for triangular (bounds dropped); proved for every other constructor"
],
"C77": [
"partial",
"Old, complete new or truncated with TypeError; the negation for every unencodable event."
],
"C78": [
"partial",
"Histories without caller mutation, failed multi-core runs and file loads for that function; negation with files."
],
"C79": [
"partial",
"Proved for normal and beta; refuted for every gamma and every lognormal distribution."
],
"C80": [
"partial",
"Proved for default, one weight, two weights, and relative weights with weights=None; refuted for relative_weights with the default weights."
],
"C81": [
"proved",
"An exact characterisation (iff) of sample() for every distribution with one numpy law, and of dice. Categorical/mixture: C05; tdist intervals: C82."
],
"C82": [
"partial",
"The property is false of the code (exact discrepancy proved for every draw); stretching is proved, and the exact law of the samples for every interval (ideal generator of C86)."
],
"C83": [
"partial",
"Proved for floor, ceil and dist_round(d, None) for every n, for round with digits, exp and log one sample at a time. FALSE for dist_round with digits, dist_exp and dist_log with n >= 2: always an exception."
],
"C84": [
"partial",
"Proved one sample at a time. FALSE for n >= 2: the distributions returned can never be sampled more than once at a time."
],
"C85": [
"partial",
"Proved for arrays returned with memcache=False: all later results are unaffected. FALSE with memcache=True: the cached array is the returned one, so an assignment changes later results."
],
"C86": [
"proved",
"Under the idealisation that numpy's numbers are functions of independent inputs. Powers need a natural exponent, or a positive base and an exponent that is not negative; tdist and log_tdist need an interval. Not covered: lclip/rclip as functions, strings, truth values (C100), user functions that return distributions or change state, correlated variables (C97)."
],
"C87": [
"proved",
"Same idealisation as C86."
],
"C88": [
"proved",
"Same idealisation as C86; numpy's normal and lognormal laws are hypotheses, satisfied by the example source."
],
"C89": [
"proved",
"ideal generator; one core, no cached events, no dump file; distributions sampled inside the event function are fixed"
],
"C90": [
"proved",
"Percentiles, mean and intervals of samples; convergence is in probability, with an explicit bound for percentiles. Real arithmetic, ideal generator."
],
"C91": [
"proved",
"For functions whose law is given by EventLaw (draws from distributions of C86, branches, measurable computations), with an ideal random source."
],
"C92": [
"proved",
"For one process, without caches; distributions of C86 and functions of C91; ideal random source."
],
"C93": [
"proved",
"refused exactly when some column is too repetitive (if the linear algebra itself raises no ValueError)"
],
"C94": [
"proved",
"Fair dice assumed of the generator."
],
"C95": [
"partial",
"Proved false (long lists merge distributions that print the same, dicts keep one of them); exact for every property that does not tell such items apart; exact characterisation of when discrete is the empirical distribution, of when a dict keeps its entries and of which distributions are identified."
],
"C96": [
"partial",
"Proved false for exploding dice built from a list and for discrete; proved for every history that leaves the passed list or dict alone, and for all histories for mixtures, single exploding faces and numpy arrays."
],
"C97": [
"proved",
"For members that are continuous, without bounds of their own, when target scores do not tie (NoTiedTargets); C97_kept gives the version without that assumption. Assumes the external functions are row blind, which rowBlind_pearson proves for np.corrcoef and spearmanr. Example: two normal variables, Cholesky factors of size two."
],
"C98": [
"partial",
"Proved false (crash between the first and last step, mixtures of concurrent dumps, zeros read during dumps); exact outcome of every crash point, of calls on a damaged file, and of every interleaving of completed dumps"
],
"C99": [
"partial",
"Proved false (ZeroDivisionError the day before, losses once the date has begun, overstated otherwise); exact error condition and exact value up to the rounding to three digits"
]
}
