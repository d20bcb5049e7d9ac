# Formal model of squigglepy in Lean 4

Source modelled: `/repo/squigglepy/{utils,distributions,samplers,bayes,correlation,rng}.py`
(the pinned commit; the code is never run here, only read). This file is generated by
`tools/gen_design.py`; do not edit it by hand.

## Layout

* `lean/Verif/Model/*.lean` — the model, function by function; every definition cites file and lines.
* `lean/Verif/Spec/*.lean` — small specifications that do not mention the model.
* `lean/Verif/Lemmas/*.lean` — helper lemmas.
* `lean/Verif/Props/*.lean` — the property theorems (names start with the property id, `C01_…`),
  each with an `example` that its hypotheses are met by a concrete non-trivial case.
* `properties.jsonl` — the properties in English; `MANIFEST.json` — which theorems prove which property.
* `AXIOMS.txt` — the axioms of every theorem named in the manifest, as Lean reports them.
* `seeded/` — wrong programs the theorems were tested against (`LOG.jsonl`, the edits in `mutants*.py`).
* Theorems ending in `_partial` prove part of a property. Theorems ending in `_fails` prove that the full
  property is false of the code, by a concrete witness. A property whose theorem list contains a `_fails`
  is false of the code as stated, and its remaining theorems say exactly how much of it holds.

## Modelling choices

* **Numbers.** Python floats are modelled by exact elements of an ordered field `K` (rational for concrete
  examples, real where `exp/log/sqrt`, probability or measure is involved). Rounding, overflow and
  NaN/inf arithmetic of IEEE floats are *not* modelled; where Python would produce `nan`, `inf` or a
  complex number the model raises `unmodelled`. `int`, `float`, `bool`, `str` and `None` samples are kept
  apart, because numpy's result types (`np.array`, `np.vectorize`) depend on them. 64-bit overflow of
  integers is not part of the main model; `Model/MachineSample` (C141) and `Model/WideSample` (C142) add it for models of whole numbers.
* **Exceptions** are values (`Except PyErr`, one constructor for each exception class); state survives an
  exception. Messages are not modelled.
* **Randomness.** numpy's generator is an oracle `Gen`: a state and, for every primitive request
  (`uniform`, `normal`, …) and size, either an error or a list of values, and a next state. Theorems hold
  for every oracle; where needed they assume it is `Lawful` (right number of values, inside numpy's
  documented range), and a concrete lawful oracle is exhibited (`Lemmas/DemoGen.lean`). Exact
  probabilities of one draw are stated with Lebesgue measure on the uniform draw, or Mathlib's Gaussian
  measure. For the laws of whole samples (C86–C88) the oracle is an ideal source (`Model/IdealSource.lean`):
  its state is an infinite stream of independent inputs and every number is a function of one input; that
  numpy's pseudo-random numbers behave like this is an idealisation, not a theorem. So is that `float ** float`
  is the power of real numbers for natural exponents and for positive bases, and that `exp`, `log` and `norm.ppf`
  are exact (fields of `Drives`).
* **Loops** become recursion over lists; the unbounded `while` of exploding dice takes fuel, which
  may depend on the die and on the state of the generator.  `Env.Patient` says that every loop with an end is
  carried out to its end, which is what Python does; `Env.patient_patient` shows that there is such an
  environment for every generator.  Theorems about laws assume it; the others hold for any fuel.
* **Hidden state** (generator, caches, files, left-over correlated samples, heap aliasing of lists and
  distribution objects) is explicit state; histories are lists of operations.
* **External functions** (`exp`, `log`, `float ** float`, `norm.ppf`, `str`, Cholesky, `spearmanr`,
  `json`/`np.save` encoders) are parameters. What a theorem needs of them is a hypothesis of the theorem,
  and is shown to be satisfiable.

## Per property: what is modelled and how it is proved

**C01 — Weights are accepted exactly when documented, and what is kept is exactly the positively weighted components** (proved). *Model:* `processWeightsValues` (Model/Weights), branch by branch. *Proof:* case analysis on the argument shapes, list induction for the final loop. *Verdict:* complete outcome of _process_weights_values for one weight per value, for length mismatches and for refused argument shapes.

**C02 — relative_weights are normalised to sum to one and only their ratios matter** (partial). *Model:* `normalize` and the relative branch of `processWeightsValues`. *Proof:* field arithmetic on sums, list induction. *Verdict:* complete decision for lists, tuples and numpy arrays; normalisation and scale invariance proved; proved false: a numpy array of zeros is accepted (nan weights) and drops every component, leaving a mixture that can be built but not sampled.

**C03 — An omitted last weight is inferred as the remainder** (partial). *Model:* `finishWeights`, the branch that appends `1 - sum`. *Proof:* case analysis; witness (a tuple) for the negation. *Verdict:* holds for lists, numpy arrays and plain numbers; proved false for tuples (AttributeError).

**C04 — Without weights every value is equally likely** (proved). *Model:* `fillWeights`. *Proof:* list induction, with missing values dropped first.

**C05 — A mixture picks component i with probability exactly its weight** (proved). *Model:* `cumsum`, `pickLoop`, `bisectLoop` (Model/Mixture). *Proof:* loop invariants for both searches, then Lebesgue measure of the set of uniform numbers that pick component i. *Verdict:* Lebesgue measure of the draws that pick component i equals its weight, for both strategies; whole calls: independent samples with P(A) = sum of w_i nu_i(A).

**C06 — The two mixture sampling strategies pick the same component and never fail** (partial). *Model:* same. *Proof:* both searches return the least index with a large enough cumulative weight; measure of the failing set; witness. *Verdict:* proved false for accepted weights with sum below 1 (IndexError for n > 100, with the exact probability); proved for draws within the total and for the small strategy; see C104 for the whole call.

**C07 — Zero-weight components are never sampled** (proved). *Model:* `keepPositive`. *Proof:* list induction. *Verdict:* zero-weight components are dropped; whole calls do not depend on them at all.

**C08 — discrete() on a long list is the empirical distribution of the list** (proved). *Model:* `counter`, `processDiscrete`. *Proof:* counting induction over the list. *Verdict:* over plain (hashable) items; Counter's == is equality of the item type.

**C09 — zero_inflated(p, d) returns the zero component with probability exactly p** (proved). *Model:* `zeroInflated` (Model/ZeroInflated) on top of C05. *Proof:* case analysis, measure of an interval. *Verdict:* C09_law: the law of the samples of zero_inflated.

**C10 — Calls never modify the caller's weight list** (partial). *Model:* `Processed.callerWeights`: the caller's list object after the call. *Proof:* exact characterisation of when it changes; witness. *Verdict:* proved false (omitted last weight is appended to the caller's list); exact characterisation of when it happens.

**C11 — sample(d, n) returns exactly n samples** (partial). *Model:* `sampleObj` (Model/Sample), all expression trees. *Proof:* structural induction over `Obj`. *Verdict:* proved for every expression except correlated variables (C33) and the t-distributions whose sampler is irregular (Obj.Regular); proved false for those t-distribution cases.

**C12 — Clipping bounds hold for every returned sample** (proved). *Model:* `applyClips`, `withClips`. *Proof:* elementwise `max`/`min` lemmas.

**C13 — Arithmetic on distributions is elementwise on samples** (partial). *Model:* `binSamples` (Model/Scalar). *Proof:* scalar/array case analysis with broadcasting, elementwise `Forall₂`. *Verdict:* full elementwise statement for numeric operands; proved false for boolean + boolean samples of comparisons.

**C14 — Comparison operators compute the comparison they are written as** (partial). *Model:* the operator methods (Arith). *Proof:* elementwise; witness for `==`, `!=`. *Verdict:* proved for > >= < <=; proved false for == and != (both compute <=).

**C15 — Piping is the same as calling** (partial). *Model:* `Verif/Model/Pipe` (closures as first-class values). *Proof:* equality of the built objects; witnesses. *Verdict:* all pipes agree except the one-sided piped clip and piped clip with distribution bounds, which are proved to fail.

**C16 — lclip/rclip/clip of a distribution clamp each sample** (partial). *Model:* `vectorize2`, `lclipElem`. *Proof:* elementwise; output type decided by the first element; witnesses. *Verdict:* exact when samples and bound have one type or n=1; proved false for mixed integers/floats, with the exact truncated result.

**C17 — Model functions are evaluated once per sample** (proved). *Model:* `Obj.call`, `callOnce`. *Proof:* induction on the number of calls. *Verdict:* complete characterisation of sample(f, n) for callables; also shows that numbers mixed with strings are converted by np.array.

**C18 — Samples stay in the support of the distribution** (proved). *Model:* `leafSample`, `mixtureRun`; `RawOk` states numpy's documented ranges. *Proof:* case analysis over the families; induction through mixtures. *Verdict:* given that numpy's raw generators respect their documented ranges (RawOk in the environment).

**C19 — Same seed, same program, same samples** (partial). *Model:* `Verif/Model/Program`: lists of `set_seed`/`sample` calls. *Proof:* the result depends on the generator state only, by tree induction, then induction over the program; witness. *Verdict:* proved for programs without correlated variables and from equal caches; proved false with correlated variables (left-over columns survive set_seed).

**C20 — In-memory sample cache is stable** (proved). *Model:* `Verif/Model/SampleCache`: memory and file caches as a state machine. *Proof:* invariant over histories of calls. *Verdict:* for every history and every way of printing distributions (the cache key); cached samples other than Python's None.

**C21 — The sample cache never answers with samples of another distribution** (partial). *Model:* same, with the printed form of a distribution as key. *Proof:* invariant over histories; unique reading of printed expressions (bracket-balanced text) and of mixtures (one line per component) against the text-free relation `Spec.PrintsAlike`; collision witnesses for `str`. *Verdict:* proved for histories in which no other distribution prints the same; for expressions of numbers, basic distributions, operators and functions the cache key is proved to identify exactly the expressions that differ in grouping, in digits beyond the second of normal parameters or in correlation group (C21_same_key_iff), so every answer is a draw from such an expression; constants other than text are told apart; proved false in general (five families of collisions and a concrete wrong answer).

**C22 — A cached call returns the requested number of samples** (partial). *Model:* same. *Proof:* invariant over histories; witness. *Verdict:* proved when all cached calls for the key ask for the same n; proved false otherwise.

**C23 — Cache files round-trip and have the documented priority** (partial). *Model:* same, file contents as values. *Proof:* commuting lemmas for save and load; witnesses. *Verdict:* round trip, priorities, reload and absence of side effects proved; proved false for object arrays, and a requested file is ignored when memory holds an entry although memcache=False.

**C24 — Work is split over cores without loss** (proved). *Model:* `coreCuts` (utils.py:181-185). *Proof:* arithmetic of integer division. *Verdict:* exact division; floats beyond 2^53 are not modelled.

**C25 — sample(d, n, cores=c) returns the same kind of result as cores=1 and cleans up** (partial). *Model:* `Verif/Model/Multicore`: fork, one file per core, any assignment of tasks to processes. *Proof:* induction over the assignment; witnesses. *Verdict:* result, order, count and clean-up proved for every distribution of tasks over processes in a clean directory; proved false for n < cores (FileNotFoundError) and for integer samples (returned as floats).

**C26 — Cores produce different randomness** (partial). *Model:* same, forked generator states. *Proof:* direct computation for any generator. *Verdict:* proved false: with one task per process and cores dividing n the result is one batch repeated cores times; within one process the batches are consecutive parts of the stream.

**C27 — Two runs in the same directory do not interfere** (partial). *Model:* `Verif/Model/TempFiles`: interleaved atomic file operations of several runs. *Proof:* invariant over all interleavings; witnesses. *Verdict:* proved for a run that is alone in the directory; proved false for concurrent runs, for stale files with n < cores, for bayesnet after a crash, and after a run whose events cannot be encoded (blocks all later ones).

**C28 — A die that passes validation always has a non-exploding face** (proved). *Model:* `dieInit`, `checkFaces` (Model/Dice). *Proof:* pigeonhole on duplicate-free faces.

**C29 — An exploding roll is the sum of the exploding faces and one final non-exploding face** (proved). *Model:* `explodeLoop` with fuel. *Proof:* induction on the roll sequence, both directions; fuel monotone.

**C30 — Inducing correlation preserves each marginal** (partial). *Model:* `induceColumn` (Model/Correlation): unique values, ranks, reorder. *Proof:* permutation arguments; witnesses. *Verdict:* proved false when draws (or target scores) tie; exact characterisation (permutation iff no value is lost), permutation for distinct scores, first variable exactly unchanged.

**C31 — The reordered samples are ordered like the target scores** (proved). *Model:* same. *Proof:* order isomorphism between ranks and sorted samples.

**C32 — Correlated variables sampled one after the other come from one joint draw** (proved). *Model:* `Obj.corr` with the left-over store (Model/Sample). *Proof:* invariant over histories of reads. *Verdict:* every history of reads of the group members, with clips.

**C33 — Repeated sampling of a correlated variable honours n** (partial). *Model:* same. *Proof:* same invariant; witnesses. *Verdict:* proved false when the number of samples changes or one sample is asked; proved when every call asks for the same n > 1, for reads of one group and for any expressions over any number of groups.

**C34 — correlate() leaves its inputs alone and links the copies** (proved). *Model:* `Verif/Model/Correlate`: a heap of objects with addresses. *Proof:* frame and freshness lemmas on the heap. *Verdict:* heap model with object identity; deepcopy modelled as copying the whole heap; exact eigenvalues.

**C35 — A scalar correlation is accepted exactly when feasible** (proved). *Model:* `CorrelationMatrix` spec; uniform matrix test. *Proof:* eigenvalues of `(1-r)I + rJ` by exact quadratic forms.

**C36 — A successful correlated sample meets the tolerance** (partial). *Model:* tolerance check of `induce_correlation`. *Proof:* case analysis; witnesses. *Verdict:* proved false for tolerance 0 and for the identity matrix; otherwise the whole decision is proved.

**C37 — contains_correlated is set exactly when a correlated variable occurs** (partial). *Model:* `containsCorrelated` (Model/DistTree). *Proof:* structural induction; witness. *Verdict:* proved false when the correlated variable is inside discrete([...]); exact characterisation for all expressions, and the full statement for expressions without discrete.

**C38 — norm(x, y) is the normal distribution whose credible interval is [x, y]** (proved). *Model:* `normInit` (Model/Params) over ℝ. *Proof:* Mathlib's Gaussian measure; measure of an interval under an affine map. *Verdict:* exact reals; scipy's norm.ppf is any function inverting the standard normal cdf on (0,1), shown to exist.

**C39 — lognorm(x, y) is the lognormal distribution whose credible interval is [x, y]** (proved). *Model:* `lognormInit`. *Proof:* push-forward of the Gaussian under `exp`. *Verdict:* exact reals; the interval of the law of the generated samples.

**C40 — lognorm parameters in linear and log space agree** (proved). *Model:* same. *Proof:* algebra of exp/log/sqrt.

**C41 — invlognorm(x, y) has credible interval [x, y]** (proved). *Model:* `invlognormInit`. *Proof:* push-forward under `1/exp`. *Verdict:* exact reals.

**C42 — invlognorm(lognorm_mean=m, lognorm_sd=s) has mean m** (partial). *Model:* same. *Proof:* Gaussian moment generating function. *Verdict:* proved false: the mean of the law is m + s^2/m, not the requested m; exact condition under which the reported mean is right.

**C43 — to(x, y) never fails on an ordered pair and picks the right family** (proved). *Model:* `toInit`. *Proof:* case analysis plus C38/C39.

**C44 — Constructors never yield a half-defined normal/lognormal** (partial). *Model:* the three constructors with optional fields. *Proof:* case analysis over all presence patterns. *Verdict:* proved false for norm with both an interval and a mean; exact acceptance conditions for norm, lognorm and the inverse lognormal.

**C45 — pert(l,m,r,lam) is a beta scaled to [l,r] with mean (l+lam*m+r)/(lam+2)** (proved). *Model:* `pertInit`, `leafSample .pert`; beta law as a spec. *Proof:* moments of the beta law, affine push-forward. *Verdict:* exact reals; beta law of the generator assumed as numpy documents it.

**C46 — bayesnet returns the conditional relative frequency** (proved). *Model:* `Verif/Model/Bayesnet`: heap of event lists, caches, files. *Proof:* refinement to `answerAbout` on the events used. *Verdict:* Refinement to answerAbout on the used events; frequency form for boolean find.

**C47 — bayesnet never answers from fewer than n simulated events** (partial). *Model:* same. *Proof:* invariant over histories. *Verdict:* Tame histories (no caller mutation, no failed multi-core run); counterexamples otherwise.

**C48 — bayesnet memory cache is stable, reloadable and can be bypassed** (partial). *Model:* same. *Proof:* invariant over histories; witness. *Verdict:* Memory cache stability, reload and bypass of the memory cache; memcache=False does not force the file to be read when a memory entry exists (C48_bypass_fails).

**C49 — bayesnet cache files round-trip** (proved). *Model:* same. *Proof:* frame lemma over histories that do not write the file. *Verdict:* Round trip over any history that does not rewrite the file, including refusal above the recorded n; the recorded n can shrink below the number of stored events (C49_recorded_fails).

**C50 — bayesnet results are independent of what the caller does with earlier results** (partial). *Model:* same, with the caller mutating returned lists. *Proof:* frame lemma; witness. *Verdict:* True for lists returned with conditional_on (any later history); false without find/conditional_on/reduce_fn.

**C51 — bayesnet with several cores collects exactly n events** (proved). *Model:* same, multi-core. *Proof:* induction over cores. *Verdict:* Every successful multi-core call in a clean directory; it succeeds when nothing raises; false with left-over files (C51_stale_fails).

**C52 — Updating a normal prior is precision-weighted averaging and order independent** (proved). *Model:* `updateNormal` (Model/Update). *Proof:* field arithmetic, permutation induction; Bayesian density identity. *Verdict:* All sequences of evidence; also the Bayesian density identity. Exact reals.

**C53 — Updating lognormal, beta and gamma priors** (proved). *Model:* `update` for all families. *Proof:* same. *Verdict:* All families, all sequences, error branches; a successful update never keeps bounds.

**C54 — simple_bayes is Bayes' rule** (proved). *Model:* `simpleBayes`. *Proof:* arithmetic; `ProbabilityTheory.cond` on an arbitrary probability space. *Verdict:* Range, odds, monotonicity, sequential updates, and Bayes' rule on every probability space.

**C55 — p_to_odds and odds_to_p are mutually inverse** (proved). *Model:* `pToOdds`, `oddsToP` (Model/Odds). *Proof:* case analysis, field arithmetic. *Verdict:* Complete outcome of both conversions and both round trips, for numbers and lists with missing entries.

**C56 — geomean lies between min and max and is symmetric and homogeneous** (proved). *Model:* `geomean`. *Proof:* weighted logarithms; list induction. *Verdict:* Formula for weights, relative weights and unweighted; bounds, homogeneity for every way of passing values; permutation; values must be positive (log of others is nan).

**C57 — geomean_odds works for every non-empty list of probabilities** (partial). *Model:* `geomeanOdds`. *Proof:* C55 and C56; witness. *Verdict:* Holds when at least two probabilities are kept; geomean_odds of a single probability raises ValueError (C57_single_fails).

**C58 — laplace returns a probability, monotone in the evidence** (proved). *Model:* `laplace` (Model/Forecast). *Proof:* real analysis. *Verdict:* The succession rule and its time-invariant version give probabilities, are monotone as stated and depend on the ratio of the times only; the outcome of each parameter combination is a table. Real arithmetic.

**C59 — growth rate and doubling time conversions are inverse** (proved). *Model:* `doublingTimeToGrowthRate`, `growthRateToDoublingTime`. *Proof:* exp/log algebra. *Verdict:* Both conversions are mutually inverse and doubling means doubling; arrays elementwise; error cases.

**C60 — kelly recommends the growth-optimal stake** (proved). *Model:* `kelly`. *Proof:* strict concavity of expected log wealth. *Verdict:* Accepted inputs, the fraction, growth-optimality against every other stake (strict), gains; full/half/third/quarter aliases. Rounding of the reported numbers is part of the model.

**C61 — kelly with error=False behaves symmetrically and never stakes more than the bankroll** (partial). *Model:* same, below the market price. *Proof:* exact value; witness. *Verdict:* The property is false of the code: below the market price the fraction is not that of the mirrored bet and can exceed the bankroll (witness 0.1 against 0.9). Proved instead: its exact value and when it does agree.

**C62 — extremize moves predictions away from 1/2** (proved). *Model:* `extremize`. *Proof:* monotonicity of real powers. *Verdict:* Real arithmetic; 1/2 is excluded from the symmetry as the code treats it as the lower branch.

**C63 — Percentiles are bounded, monotone and labelled right** (proved). *Model:* `npPercentile`, `getPercentiles` (Model/Percentiles). *Proof:* linear interpolation in a sorted list. *Verdict:* value, range, bounds, monotone, ends, permutation, ranks, affine, labels, entries, digits; empty data unmodelled.

**C64 — Weighted percentiles are bounded and monotone** (partial). *Model:* weighted branch, every `argsort` order. *Proof:* interpolation over mid-ranks; witness with ties. *Verdict:* valid (non-negative, not all zero) weights; bounded, monotone, scale invariant; full value for distinct data; permutation invariance FALSE with equal data (C64_permutation_fails), proved for distinct data.

**C65 — Credible intervals bracket the median** (partial). *Model:* `getMedianAndCi`, `getMeanAndCi`. *Proof:* C63 plus counting; witnesses. *Verdict:* brackets, coverage, mean bounds proved; the weighted mean clause is FALSE (weights ignored); negative credibility accepted and inverted.

**C66 — get_log_percentiles returns a value for every input** (partial). *Model:* `getLogPercentiles`. *Proof:* case analysis; witnesses. *Verdict:* FALSE: single percentile with display returns None; rounding before log10; proved for several percentiles and for unrounded logs.

**C67 — Custom buckets partition the data** (partial). *Model:* `bucketPercentages`, `npHistogram` (Model/Buckets). *Proof:* counting lemmas; witnesses. *Verdict:* custom, histogram and equal-width buckets proved with distinct labels; partition of contiguous buckets; FALSE clauses proved: default arguments raise TypeError, default labels wrong for gaps and for the last histogram bucket, repeated labels drop counts; empty data with normalize unmodelled.

**C68 — event(p) happens with probability p** (proved). *Model:* `event`, `leafSample .bernoulli`. *Proof:* Lebesgue measure of `[0, p)`. *Verdict:* The set of uniform numbers on which the event happens has Lebesgue measure p; a distribution as probability is sampled once first; bernoulli likewise (n samples: C81).

**C69 — Scalars and arrays unwrap consistently** (partial). *Model:* `OneMany`, `Samples.simplify`. *Proof:* case analysis. *Verdict:* p_to_odds, odds_to_p and one sample of every regular expression; proved false for tdist without an interval.

**C70 — sharpe_ratio is invariant under rescaling** (proved). *Model:* `sharpeRatio`. *Proof:* algebra of mean and standard deviation. *Verdict:* Affine invariance for every list of returns and sign flip; value as mean over population standard deviation.

**C71 — is_continuous_dist recognises exactly the continuous expressions** (partial). *Model:* `isContinuous` (Model/DistTree). *Proof:* structural induction; witnesses. *Verdict:* proved false in both directions (unary operations, numeric operands; comparisons); exact characterisation.

**C72 — Invalid inputs are rejected at construction** (proved). *Model:* all constructors (Model/Constructors). *Proof:* case analysis: complete acceptance table.

**C73 — The target scores have exactly the requested correlation** (proved). *Model:* the linear algebra of `induce_correlation` with Cholesky factors given by their equations (Props/TargetScores). *Proof:* exact matrix algebra. *Verdict:* Cholesky factors given by their defining equations; exact arithmetic; quantiles are only taken inside (0, 1).

**C74 — Expressions of correlated variables keep their partners when correlated again** (partial). *Model:* heap model of `correlate`. *Proof:* witness. *Verdict:* proved false with a concrete witness; what holds: all copies made by one call stay linked among themselves.

**C75 — Whatever a constructor returns can be sampled** (partial). *Model:* constructors and sampler together. *Proof:* tree-free case analysis over families; witness. *Verdict:* proved false for every refusing generator; proved under the parameter conditions that construction does not check, for basic distributions, discrete lists, mixtures with weights summing to at least one, and (unless a roll never ends) exploding dice.

**C76 — Bounds passed to a constructor hold for every sample** (partial). *Model:* same. *Proof:* case analysis; witness. *Verdict:* proved false for triangular (bounds dropped); proved for every other constructor.

**C77 — A failed dump keeps the previous cache file** (partial). *Model:* file dump in `bayesnet`, encoder that may fail midway. *Proof:* case analysis; witness. *Verdict:* Old, complete new or truncated with TypeError; the negation for every unencodable event.

**C78 — Events used for an event function were produced by it** (partial). *Model:* `Verif/Model/Bayesnet`. *Proof:* invariant over histories; witness. *Verdict:* Histories without caller mutation, failed multi-core runs and file loads for that function; negation with files.

**C79 — Updating moves the mean towards the evidence, not beyond it** (partial). *Model:* `update`. *Proof:* convexity; witnesses. *Verdict:* Proved for normal and beta; refuted for every gamma and every lognormal distribution.

**C80 — average is the mixture with the given weights** (partial). *Model:* `average`. *Proof:* reduction to C01/C02/C05; witness. *Verdict:* Proved for default, one weight, two weights, and relative weights with weights=None; refuted for relative_weights with the default weights.

**C81 — Every distribution draws the law it is named after** (proved). *Model:* `leafSample` against a table of named laws (Spec/Laws). *Proof:* complete characterisation per family. *Verdict:* An exact characterisation (iff) of sample() for every distribution with one numpy law, and of dice. Categorical/mixture: C05; tdist intervals: C82.

**C82 — tdist(x, y) moves and stretches with its interval** (partial). *Model:* `tInterval`, and the stream model of C86. *Proof:* exact identity between draws; witness; law of the ratio through the product measure. *Verdict:* The property is false of the code (exact discrepancy proved for every draw); stretching is proved, and the exact law of the samples for every interval (ideal generator of C86).

**C83 — Rounding, exp and log of a distribution act on each sample** (partial). *Model:* `distRound`, `distCeil`, `distFloor`, `distLog`, `distExp`, `roundSamples`. *Proof:* pointwise characterisation; negations for every n ≥ 2; rounding specified in Spec/Rounding. *Verdict:* Proved for floor, ceil and dist_round(d, None) for every n, for round with digits, exp and log one sample at a time. FALSE for dist_round with digits, dist_exp and dist_log with n >= 2: always an exception.

**C84 — Growth rates and doubling times of distributions** (partial). *Model:* `growthToDoublingDist`, `doublingToGrowthDist`. *Proof:* reduction to the scalar conversions of C60; negations for every n ≥ 2. *Verdict:* Proved one sample at a time. FALSE for n >= 2: the distributions returned can never be sampled more than once at a time.

**C85 — Changing a returned array does not change later samples** (partial). *Model:* `sample` on a heap of arrays (`Model/SampleHeap`). *Proof:* refinement of the heap model to the value model (`SampleCache`) for every history; negation for every distribution. *Verdict:* Proved for arrays returned with memcache=False: all later results are unaffected. FALSE with memcache=True: the cached array is the returned one, so an assignment changes later results.

**C86 — Samples are independent draws from the distribution they describe** (proved). *Model:* `sampleObj` with an ideal source (`Model/IdealSource`: the generator state is an infinite stream of independent inputs, each number uses one). *Proof:* induction over the expression: each program maps the stream to (result, rest) and pushes the product measure to (law of the result) × (stream); independent of `Denotes` (`Spec/Denote`), which gives the law without mentioning sampling. *Verdict:* Under the idealisation that numpy's numbers are functions of independent inputs. Powers need a natural exponent, or a positive base and an exponent that is not negative; tdist and log_tdist need an interval. Not covered: lclip/rclip as functions, strings, truth values (C100), user functions that return distributions or change state, correlated variables (C97).

**C87 — Estimates from samples converge to the true value** (proved). *Model:* as C86. *Proof:* Chebyshev's and Hoeffding's inequalities (Mathlib) for the independent samples of C86. *Verdict:* Same idealisation as C86.

**C88 — Intervals and sums of normal distributions mean what they say when sampled** (proved). *Model:* constructors (C38, C39) followed by `sampleObj` with an ideal source. *Proof:* C87 with the probability of the interval from C38/C39; convolution of Gaussian measures for the sum. *Verdict:* Same idealisation as C86; numpy's normal and lognormal laws are hypotheses, satisfied by the example source.

**C89 — bayesnet estimates conditional probabilities** (proved). *Model:* event functions as programs (`Model/EventFn.lean`), their laws by a small inductive specification (`Spec/EventLaw.lean`), `bayesnet` of `Model/Bayesnet.lean`, ideal generator. *Proof:* induction over the event function, then Hoeffding's inequality for the two counts. *Verdict:* ideal generator; one core, no cached events, no dump file; distributions sampled inside the event function are fixed.

**C90 — Percentiles and credible intervals of samples estimate those of the law** (proved). *Model:* `getPercentiles`, `getMeanAndCI`, `getMedianAndCI` applied to the output of `sampleObj` with an ideal source; quantiles in `Spec/Quantile.lean`. *Proof:* ranks of the percentile (C63) turned into frequencies of two tails, Hoeffding's inequality, C38/C39 for the intervals. *Verdict:* Percentiles, mean and intervals of samples; convergence is in probability, with an explicit bound for percentiles. Real arithmetic, ideal generator.

**C91 — Samples of a function have the law of what it computes** (proved). *Model:* `EventFn.obj` turns a model of a Python function (draws, branches, a result) into what `sample` calls n times; the ideal source of C86. *Proof:* law of one call from C89's `EventLaw`, then induction over the n calls, each on the rest of the stream. *Verdict:* For functions whose law is given by EventLaw (draws from distributions of C86, branches, measurable computations), with an ideal random source.

**C92 — All the numbers of a session are independent** (proved). *Model:* `runAll` runs k calls one after the other on the same generator. *Proof:* induction over the calls: what a call leaves of the stream is independent of what it returned and is again an ideal stream. *Verdict:* For one process, without caches; distributions of C86 and functions of C91; ideal random source.

**C93 — Correlated samples are refused exactly when they repeat too much** (proved). *Model:* `CorrGroup.induce` (Model/Correlation), histories of Props/JointDraw. *Proof:* counting distinct values; induction over the explained history. *Verdict:* refused exactly when some column is too repetitive (if the linear algebra itself raises no ValueError).

**C94 — The law of an exploding die** (proved). *Model:* explodeLoop, singleRoll, dieInit, leafSample over an ideal source. *Proof:* first-step analysis on streams of inputs: the run ends almost surely, its total and the rest of the stream have a product law, the fixed-point equation has one solution; a patient loop agrees with the unbounded run; the bounded loop is unfinished with chance (k/s)^(f+1). *Verdict:* Fair dice assumed of the generator.

**C95 — Distributions as items of discrete() and as dictionary keys are kept apart** (partial). *Model:* items with keys (value of a number, printed form of a distribution), `counterBy`, dict displays as lists of entries. *Proof:* counting induction over the list for every property that respects keys; the keys of distributions are characterised by the printed-form theorem of C21; witnesses. *Verdict:* Proved false (long lists merge distributions that print the same, dicts keep one of them); exact for every property that does not tell such items apart; exact characterisation of when discrete is the empirical distribution, of when a dict keeps its entries and of which distributions are identified.

**C96 — A distribution does not change after it was built** (partial). *Model:* the caller's lists as cells of a heap; what each constructor keeps (`build`) and what it means later (`Kept.now`). *Proof:* induction over the writes; case analysis over constructors; for the endless die induction over the bound on extra rolls. *Verdict:* Proved false for exploding dice built from a list and for discrete; proved for every history that leaves the passed list or dict alone, and for all histories for mixtures, single exploding faces and numpy arrays.

**C97 — Correlating variables does not distort their distributions** (proved). *Model:* joint sampling of a group under ideal randomness. *Proof:* reordering commutes with exchanging rows and sees only the order within columns, so success is independent of each column and the reordered column is exchangeable; Lemmas/RankInvariance, Lemmas/Exchange, Lemmas/CorrelatedLaw, Props/CorrelatedLaw. *Verdict:* For members that are continuous, without bounds of their own, when target scores do not tie (NoTiedTargets); C97_kept gives the version without that assumption. Assumes the external functions are row blind, which rowBlind_pearson proves for np.corrcoef and spearmanr. Example: two normal variables, Cholesky factors of size two.

**C98 — A cache file holds the old samples or the new ones, never anything else** (partial). *Model:* file as blocks (gap, header, numbers), one operation at a time (`Model/CacheFileSteps`); schedules in `Spec/CacheFiles`. *Proof:* last truncation and last header of any interleaving; exact outcome at every crash point; witnesses for the mixture and the zeros. *Verdict:* Proved false (crash between the first and last step, mixtures of concurrent dumps, zeros read during dumps); exact outcome of every crash point, of calls on a damaged file, and of every interleaving of completed dumps.

**C99 — kelly reports the yearly return of a bet** (partial). *Model:* `kellyAt` (Model/KellyDate): `kelly` with the whole days until the date. *Proof:* equations of real powers against `Spec.IsYearlyReturn`; monotonicity of rounding; exact error condition. *Verdict:* Proved false (ZeroDivisionError the day before, losses once the date has begun, overstated otherwise); exact error condition and exact value up to the rounding to three digits.

**C100 — Comparing two distributions estimates a probability** (partial). *Model:* stream model of C86 with truth values as results. *Proof:* law of pairs through the elementwise comparison, Hoeffding bound; == and != proved to estimate <=. *Verdict:* Proved for >, >=, < and <= (ideal generator of C86); proved false for == and !=, which estimate the probability of <=.

**C101 — Bounds keep the distribution between them and put the rest on the bounds** (proved). *Model:* the sampler on an ideal random stream. *Proof:* the law of the samples without bounds (C86) is carried through the clipping step; the preimages of the bounds and of sets between them are computed. *Verdict:* the distribution has no bounds of its own; with own bounds see C101_own_or_call.

**C102 — Means and variances of expressions** (proved). *Model:* the sampler on an ideal random stream. *Proof:* laws from C86, strong law of large numbers, moments of product measures. *Verdict:* IEEE rounding not modelled.

**C103 — bayesnet with a numeric find estimates conditional expectations** (proved). *Model:* bayesnet on an ideal random stream. *Proof:* the used events are independent (C89), the result is a quotient of two averages, both converge. *Verdict:* single core, no cached events.

**C104 — Mixture weights that do not sum to exactly one** (partial). *Model:* mixture sampling for few and for many samples. *Proof:* the picked component does not depend on the last weight while the uniform number stays within the total; for more than 100 samples and a total t < 1 the negation: the call raises with probability 1 - t^n, from the law of the uniform numbers. *Verdict:* Proved for up to 100 samples and for weights with a sum of at least 1 (and the others below 1). FALSE for more than 100 samples of two or more components with a sum t below 1: IndexError with probability exactly 1 - t^n.

**C105 — Expressions that mean the same can be exchanged** (proved). *Model:* `SameSamples`: both expressions almost surely give vectors of numbers with equal joint law. *Proof:* laws of the expressions (C86) and equality of those laws: Gaussian convolution, product and map of measures, sums of weighted laws. *Verdict:* For expressions whose law is given by Denotes. C105_same_law_iff: same samples exactly when the laws are equal. C105_not_double: x + x and 2 * x differ.

**C106 — Correlation does not change the mean of a sum** (proved). *Model:* `.bin` of two `.corr` members; the first call draws the whole group, the second takes the column left over. *Proof:* each column has its member's own law given success (C97), Chebyshev for each column, union bound. *Verdict:* For continuous members without bounds, when target scores do not tie (C97).

**C107 — Bounds of one cached call do not leak into another** (partial). *Model:* histories of `cachedSample` calls with bounds (Model/SampleCache.lean). *Proof:* invariant on the entry of the key over all histories: within the bounds of d (bounds in order); drawn without bounds (no bounds in the history); negation: the clipped samples are stored, so the bounds of the first call stay for all later ones; on a hit the bounds of d do not win over contradicting bounds of the call. *Verdict:* The bounds passed in the call itself always hold (C107_call: any caches, files, cores). The distribution's own bounds hold when bounds are in order and (second half) no cached call passes bounds; the bounds of the first cached call leak into all later ones (C107_leak_fails, C107_constant_fails), and on a cache hit the distribution's own bound can be exceeded when bounds contradict (C107_own_bound_on_hit_fails).

**C108 — one_in reads as the probability it was given** (proved). *Model:* `oneIn`, `oneInText` (Model/Forecast.lean, Model/OneIn.lean). *Proof:* nearest integer with ties to even by the rounding lemmas, monotone by comparing nearest integers, digit groups by induction on the digits; the text of a float (digits > 0) is not modelled. *Verdict:* The text is proved for digits=0; how a float prints (digits > 0) is not modelled.

**C109 — discrete over distributions picks one of them and does not sample it** (proved). *Model:* `chooseRun`, `discreteChoose`, `doubleResolve`, `discreteOf`, `mixtureOf` (Model/DiscreteDists.lean). *Proof:* naturality of the choice in the items, then the law from the mixture of the place numbers (C86); resolving twice by unfolding both sides over the same uniform number. *Verdict:* The choice through Counter for lists of 100 or more items is C95; resolving twice is stated for shorter lists, where both constructors process the items alike.

**C110 — Expected values and variances come out as worked out by hand** (proved). *Model:* `sampleObj`, `leafSample` (Model); the documented laws `numpyLaw` and the rules `MeanIs`, `MomentsAre` (Spec). *Proof:* moments of every documented law computed from its density or mass function, induction over the rules with Fubini for products, then the laws of large numbers of C102; a source with the documented laws is constructed (a product measure), so the hypothesis is met. *Verdict:* the mean and variance rules for all the listed distributions and operations, under the documented laws of numpy's primitives (C110_generator shows that a generator with these laws exists); sampled t distributions, powers and quotients of distributions are not among the rules.

**C111 — The usual error bars of an average of samples are right** (proved). *Model:* `sampleObj` (Model/Sampling.lean), `sampleChance`, `stdError` (Spec/Accuracy.lean). *Proof:* the samples are independent draws of the law (C86); central limit theorem and Slutsky's theorem (Mathlib) for the pair (error, variance of the samples); portmanteau theorem for the sets in question. *Verdict:* for every law the model knows (Denotes); a version for models whose mean and variance are worked out by hand (C111_model_mean).

**C112 — Chances come out as worked out by hand** (proved). *Model:* `sampleObj`, `leafSample`, `getPercentiles` (Model); the rules `ChancesAre` (Spec). *Proof:* distribution function of every documented law computed from its density or mass function, induction over the rules, then C86, C87 and C90; the hypothesis on the generator is met by the source of C110. *Verdict:* Chances of being below a threshold for every model built by the listed rules, from numpy's documented laws; plus the fraction of samples and percentiles. gamma, beta, chisquare and pert have no closed distribution function and are left out, as are sums of two distributions.

**C113 — Models with finitely many outcomes: listing the outcomes gives the chances** (proved). *Model:* `sampleObj`, `leafSample` (Model); the enumeration `OutcomesAre`, `chanceOf`, `expectOf` (Spec). *Proof:* the law of the model is shown to be the sum of point masses of the list (products, push-forwards and weighted sums of such laws), then C86, C87, C102. *Verdict:* Enumeration of outcomes for models with finitely many of them; an exploding die has infinitely many outcomes and is C94.

**C114 — bayesnet answers found by following the branches of the event function** (proved). *Model:* `bayesnet`, `EventFn.run`, `sampleObj` (Model); the enumeration `LeavesAre`, `branchChance`, `branchSum` (Spec). *Proof:* induction over the branches: the law of the returned value is the sum of point masses of the leaves; then the bounds of C89 and the limit of C103. *Verdict:* README examples worked out: alarm network, Monty Hall, bags of dice. The README's ~0.27 for the alarm network is 0.284 exactly.

**C115 — normalize in floating-point arithmetic** (proved). *Model:* `normalizeFl`, `sumFl` (Model/Rounded); `RoundsTo` (Spec/Float). *Proof:* bound of the accumulated error of a sum of non-negative numbers by induction; negation: 1/3 is not a float. *Verdict:* sums of non-negative floats; the result need not sum to 1 exactly (C115_not_exact).

**C116 — The tolerance for weights covers rounding errors** (proved). *Model:* `processFl` (Model/Rounded). *Proof:* error bounds of C115; processing the kept weights again is the identity. *Verdict:* lists of up to 2^p/100000 weights.

**C117 — Components of mixtures in floating-point arithmetic** (partial). *Model:* `pickLargeFl`, `pickSmallFl`, `cumsumFl` (Model/Rounded). *Proof:* the choice is characterised by the rounded partial sums; counting of grid points; negation by computing the sum of seven doubles 1/7. *Verdict:* the bound on the chances is proved; that no call fails is violated by the code (C117_rounding_fails), and the chance of failing is bounded (C117_failure).

**C118 — Odds and laplace in floating-point arithmetic** (partial). *Model:* `pToOddsFl`, `oddsToPFl`, `laplaceFl` (Model/Rounded). *Proof:* every rounding as a factor 1 + d with d at most 2^(-p) in size; algebra of the factors. *Verdict:* the round trip from odds is violated by the code for huge odds (C118_huge_odds_fails); bound for moderate odds proved.

**C119 — kelly in floating-point arithmetic** (proved). *Model:* `kellyFl` (Model/Rounded). *Proof:* propagation of absolute errors through the nine operations. *Verdict:* numbers before they are rounded for display.

**C120 — event and bernoulli with uniform numbers of finitely many digits** (proved). *Model:* `happensFl`, `gridPoint` (Model/Rounded). *Proof:* counting grid points below q. *Verdict:* uniform numbers are multiples of 2^(-p).

**C121 — uniform and pert in floating-point arithmetic** (partial). *Model:* `uniformFl`, `pertFl` (Model/RoundedDists). *Proof:* a float times a float below 1 rounds to a smaller float; hence the scaled number never exceeds the exact width. *Verdict:* uniform is proved; for pert the code violates the property when the beta draw is 1 (C121_pert_fails), otherwise it is proved (C121_pert_partial).

**C122 — simple_bayes in floating-point arithmetic** (proved). *Model:* `simpleBayesFl` (Model/RoundedDists). *Proof:* roundings as factors near 1.

**C123 — Updating a normal prior in floating-point arithmetic** (proved). *Model:* `updateMeanFl`, `updateSdFl` (Model/RoundedDists). *Proof:* roundings as factors near 1 in a weighted sum; square root of a factor near 1. *Verdict:* sd ** 2 is taken as the correctly rounded square.

**C124 — norm(x, y) in floating-point arithmetic** (partial). *Model:* `normFl` (Model/RoundedDists). *Proof:* halving is exact; roundings as factors near 1. *Verdict:* interval and bounds proved; positivity of sd is violated by the code for neighbouring floats (C124_positive_fails).

**C125 — What evidence_weight means** (partial). *Model:* `updateAll` (Model/Update). *Proof:* precisions (shapes) add up, and are linear in the weight; limit of a quotient. *Verdict:* proved for normal, lognormal and gamma; the code ignores the weight for beta (C125_beta_fails).

**C126 — Sampling what bayes.average returns** (proved). *Model:* `averageObj` (Model/AverageObj). *Proof:* law of a mixture (C86) applied to the processed weights (C80). *Verdict:* ideal generator; relative weights with weights=None (otherwise C80_relative_fails).

**C127 — All percentiles at once** (proved). *Model:* `getPercentiles`, `sampleObj`. *Proof:* Hoeffding at finitely many quantiles of the law and monotonicity between them; percentile from a fraction (C90). *Verdict:* for all distributions the model gives a law; the constant is not optimal.

**C128 — The same seed with other numbers in the model** (proved). *Model:* `sampleObj`, `leafSample`, `mixtureRun` on two models. *Proof:* two runs in lock step, by induction on the pair of models; that numpy makes its numbers from standard ones (`FromStandard`) is an assumption. *Verdict:* Assumes, as an explicit hypothesis (FromStandard), that numpy makes uniform, normal, lognormal, exponential and gamma numbers from standard ones whose stream does not depend on location and scale; met by the example source. Families other than uniform, norm, lognorm, exponential, gamma, bernoulli, pert and const may appear unchanged; the weights of mixtures are unchanged.

**C129 — Estimates with several cores are as accurate as with one** (partial). *Model:* `sampleCores`, `runWorkers` (Model/Multicore) on an ideal random stream. *Proof:* induction over the schedule: every batch is a vector of independent draws; convexity of the square for the average over batches, union bound for chances; the negation from the repeated batch of C26 and the central limit theorem. *Verdict:* Proved: success, independence within every batch, convergence, and an error bound c times that of one core for every distribution of tasks. FALSE: with one task per process the variance of the average is exactly c times that of n samples (C129_variance_fails) and the usual error bars are too narrow by the factor sqrt c (C129_error_bars_fails, C129_too_narrow).

**C130 — Conditional probabilities from bayesnet with several cores** (partial). *Model:* `bayesnet`, `generateEvents`, `runEventWorkers`, `writeBatch`, `collectEvents` (Model/Bayesnet) on an ideal random stream. *Proof:* induction over the schedule: every batch is a vector of independent events; Hoeffding's inequality for each batch and each count, union bound, averaging over batches; the negation from repeated batches. *Verdict:* Convergence and the error bound 4 c exp(-2 (n/c) (δ p/(2+δ))²) hold for every schedule (C130_events, C130_conditional, C130_limit). That n events on c cores are worth n events on one core is false: C130_no_gain_fails shows that with one task per process c·k events give exactly the answer of k events on one core.

**C131 — Sampling the objects that correlate returns** (partial). *Model:* `heapSample` follows references on the heap of `correlate`, with a recursion limit; `correlateSt` copies kept samples. *Proof:* refinement to the tree sampler by induction on the unfolding (C131_refines), instantiated for the results of correlate on separate variables (C131_correlated_partial), invariants of all programs (C131_program); the code fails for a variable built from another (C131_built_from_fails: no read ever returns), the same variable twice (C131_twice_fails) and kept samples copied by correlate (C131_pending_fails). *Verdict:* Proved: sampling objects equals sampling the written-out tree, and the results of correlate on separate variables are such trees. Missing, because the code fails it (negations proved): variables built from one another, a variable given twice, and kept samples that correlate copies.

**C132 — More samples with the same seed** (partial). *Model:* `sampleObj` run twice from one state with n and n + k samples, any sequential generator (`Sequential`). *Proof:* every step of the sampler on arrays is shown to commute with taking the first n; induction over the models with one source of randomness (`OneSource`, which includes Python functions); FALSE for sums of two distributions (C132_sum_fails) and for mixtures beyond 100 samples (C132_mixture_fails). *Verdict:* Proved for every model with one source of randomness (basic distributions, operations with numbers, bounds, functions of each sample, Python functions), for one sample of basic distributions, for mixtures of any models up to 100 samples, and for bayesnet. FALSE for sums of two distributions and for mixtures beyond 100 samples.

**C133 — Divisions by zero, infinities and nan in samples** (partial). *Model:* `Model/Special`: floats with infinities, nan and negative zero, otherwise exact; `evalMany` (arrays), `evalOne` (one sample, knowing whether it is a numpy number), `xMean`, `boundMany`; `Model/SpecialSample`: the sampler over them. *Proof:* induction over expressions; C133_extends shows that this model continues the main one; FALSE that divisions by zero always show (C133_hidden_fails), that one sample and several agree (C133_one_many_fails), and that one sample always raises (C133_one_numpy_fails). *Verdict:* Proved for several samples, for one sample of + - * / and negation, for means, bounds and chances, and as an extension of the main sampler. FALSE: one sample whose divisor goes through dist_max, dist_min, lclip or rclip gives an infinity instead of raising; a division by zero need not show in the sample.

**C134 — Correlated variables sampled with several cores** (partial). *Model:* Every task of the pool works on its own pickled copy of the distribution, so of the left-over samples (`onCopy`). *Proof:* induction over the schedule: each core starts with the parent's left-over samples; the step lemma of C32 for each batch; negations for two calls, a positive theorem for expressions and for the end of the two results. *Verdict:* FALSE for two calls: every core makes a joint draw but only the last core's other columns survive and are returned once per core (C134_kept_fails, C134_count_fails, C134_one_core_fails); proved: what each call returns for every schedule, the ends of both results are one joint draw, and one call on an expression of two variables combines values of one joint draw.

**C135 — Textbook identities between the distributions** (proved). *Model:* Spec/Total (sum of copies), Lemmas/FamilyLaws (laws), Props/Algebra (same law, same samples). *Proof:* a law with exponential moments near 0 is determined by them (analytic continuation to the characteristic function): gamma, binomial, chi-square; tails for minima and rounding up, distribution functions for maxima and powers, convolution of densities for uniform sums; induction on the number of terms; then C105. *Verdict:* laws as numpy documents them, exact real arithmetic.

**C136 — Progress output does not change results** (partial). *Model:* Model/Verbose: the sampler once more, with the progress bars it opens, ticks and closes. *Proof:* induction over the expression: forgetting the bars gives the sampler of Model/Sample; below a million samples no nested call turns verbose on; each loop advances its own bar by its number of rounds times the number of cores. *Verdict:* Proved: results never depend on verbose; silence below a million samples; bars end exactly with one core, and with several cores when these divide n. FALSE otherwise: with a million samples or more, components of mixtures are sampled with the default verbose, so verbose=False still shows the bars of nested mixtures; with several cores the parent's bar counts (cores-1)*(n mod cores) too far. Lines of text printed around the bars are not modelled.

**C137 — Percentiles in floating-point arithmetic** (proved). *Model:* Model/RoundedPercentiles: np.percentile with a rounding after each operation, as numpy computes it. *Proof:* rounding is monotone and nearest: a float times less than one half rounds below its half, so the two branches of the interpolation never cross; the exact interpolation is Lipschitz in the position. *Verdict:* np.percentile as numpy computes it, with any correct rounding after each operation; get_median_and_ci without weights and digits.

**C138 — Means and relative frequencies in floating-point arithmetic** (partial). *Model:* Model/RoundedMean: np.mean with a rounding after each addition, in any order, and in numpy's pairwise order. *Proof:* induction over the tree of additions; the depth of numpy's tree is at most 19 + log2 n; sums of zeros and ones are exact. *Verdict:* Accuracy, monotonicity and the statements on bayesnet are proved for every order of additions. FALSE: that the mean lies between the smallest and the largest of the data (C138_between_fails: three times 0.1); proved up to rounding for positive data (C138_between_partial).

**C139 — Models in floating-point arithmetic** (proved). *Model:* Model/RoundedSample: the sampler with a rounding after each operation on floats, Spec/Accumulated: which models have no cancellation and how many roundings they collect. *Proof:* induction over the model: a factor of (1+u)/(1-u) for each rounding, factors of products multiply; whole numbers up to 2^53 are floats. *Verdict:* Any correct rounding to p binary digits; overflow and subnormal numbers are left out. The error bound is for models without subtraction; C139_cancellation_fails shows that there is none with it.

**C140 — What verbose=True prints is true** (partial). *Model:* Model/BayesMessages and Model/SampleMessages: the functions with the lines they print, Spec/Messages: what the lines claim. *Proof:* the printing functions project to the silent ones; then cases over caches, files and errors, induction over the events for the bar. *Verdict:* False in two cases, both proved: with several cores the bar of bayesnet counts beyond its total (C140_bar_cores_fails), and sample announces the in-memory cache when it holds None but samples again (C140_sample_loading_fails).

**C141 — Whole-number models and 64-bit integers** (partial). *Model:* Model/MachineSample: arrays of 64-bit integers, single numbers that are Python's or numpy's; Spec/Machine: numbers that fit, what is left in 64 bits, how large a model can get. *Proof:* induction over the model: +, -, * and powers commute with the remainder modulo 2^64, comparisons are between numbers that fit; the run is that of the exact sampler. *Verdict:* Exact for results that fit into 64 bits and for single samples without comparisons; false beyond (C141_overflow_fails, C141_single_fails), where the samples are the exact numbers modulo 2^64. Comparisons inside the model are assumed to be between numbers that fit.

**C142 — Named large numbers and whole numbers beyond 64 bits** (partial). *Model:* Model/WideSample: arrays of 64-bit integers or of Python objects, collecting batches as floats, the named numbers; Spec/WideNumbers: numbers too wide, models whose results are kept. *Proof:* induction over the model: results of objects are exact, the others fit; batches of several cores are runs of the same sampler; odd numbers above 2^53 are no floats. *Verdict:* Exact where every result on the way fits into 64 bits or is computed with a number too wide for them (in particular for sextillion and beyond); false for quintillion (C142_quintillion_fails), where a wide number comes in too late (C142_late_fails), and beyond 2^53 with several cores (C142_cores_fails). Literals from 2^63 up to 2^64 and bounds on arrays of objects are not modelled.

**C143 — Updating and laplace are Bayes' theorem** (partial). *Model:* Spec/Posterior: posterior and predictive distributions, likelihoods of trials, events, measurements; Model/Update, Model/UpdateObj, Model/Forecast. *Proof:* densities times likelihoods are multiples of densities; posterior is conditional probability (posterior_is_conditional); gamma: compare means. *Verdict:* Proved for beta, normal and lognormal distributions (law of the result and of its samples), and for laplace with trials and with times. For gamma distributions the claim is false for all parameters (C143_gamma_fails): rates are averaged instead of added.

**C144 — Simulating an experiment agrees with update and laplace** (proved). *Model:* Spec/Experiment: the event function with a loop of N trials; Model/EventFn, Model/Bayesnet, Model/Update, Model/Forecast. *Proof:* induction over the trials gives the joint law; conditional law = posterior of C143; bounds of C89 and C103. *Verdict:* Event function with a loop of N trials; one core, no cached events.

**C145 — Pooling forecasts commutes with updating on evidence** (proved). *Model:* Model/Odds and Model/Update as before. *Proof:* odds form of simple_bayes (C54) and of geomean_odds (C57); weighted geometric mean is homogeneous, inverts and is monotone; witness 1/5, 4/5 for geomean. *Verdict:* Lists keeping at least two probabilities (one alone raises ValueError, C57_single_fails); C145_geomean_fails shows the contrast with geomean.

**C146 — Betting the stake that kelly reports wins in the long run** (partial). *Model:* Spec/RepeatedBets: wealth after a list of outcomes; Model/Forecast, Model/Sampler as before. *Proof:* log wealth counts the wins; frequency bound of C87; log x <= x - 1 for the loss by rounding; witness 0.99985 at price 1/2. *Verdict:* C146_growth and C146_beats for the exact best stake; C146_reported_partial for reported stakes below 1; C146_reported_fails: kelly reports 1.0 for best stakes above 0.9995, which loses everything at the first loss.

**C147 — The date string of kelly is a calendar date** (proved). *Model:* Model/DateText: strptime with its regular expression, validity of a datetime, toordinal; Spec/Calendar: leap years, lengths of months, next day, ways to write a date. *Proof:* characterisation of each group of the regular expression; induction over the next day for the numbering. *Verdict:* Digits are the ten ASCII digits. That the call raises on the day before is recorded as a fault under C99.

**C148 — Bounds with several cores** (partial). *Model:* Model/Multicore: workers, files, collection and the bounds applied again at the end. *Proof:* files characterised by induction over the schedule, clamping twice is clamping once if bounds are in order, measure-preserving maps for the law; concrete witnesses for the two violations. *Verdict:* The bounds of the call always hold; all bounds hold if they are in order and no files are left over; law as on one core. Violations proved: crossing bounds give another result on several cores, left-over files break the bounds of the distribution.

**C149 — Answers of bayesnet from the same cached events are coherent** (proved). *Model:* Model/Bayesnet, Model/Update: memory cache, event lists, filtering, np.mean of booleans, simple_bayes. *Proof:* the cached list is preserved over all histories (induction), the answers are ratios of shares of it, and shares form a probability. *Verdict:* With memcache=True; C149_fresh_fails shows that the cache is needed.

**C150 — Typing in what a distribution prints builds it again** (proved). *Model:* Model/CallText: signatures, Python's binding of arguments, constructors by name; Spec/PrintedCall: text of a call. *Proof:* case by case over the constructors; texts compared symbolically. *Verdict:* C150_reads_back for the listed families, C150_norm for normal distributions with any parameters; the _fails theorems give the families whose text cannot be typed in. Categorical distributions and exploding dice are not covered (their printed lists are not modelled).

**C151 — Percentiles and intervals follow the data** (proved). *Model:* Model/Percentiles: np.percentile, weighted percentiles, intervals. *Proof:* through the specification of a percentile; counting argument for sorted lists. *Verdict:* C151_units, C151_mirror, C151_dominance, C151_close for percentiles; C151_intervals, C151_intervals_mirror for the intervals; C151_weighted with weights.

**C152 — A bayesnet cache file cut off at any byte is recognised; a complete one gives the events back** (proved). *Model:* Model/MsgPack: MessagePack bytes written and read (msgspec), cache and core files; Spec/EventFile: values, Storable, asRead. *Proof:* mutual induction over values: decoder inverts encoder, decoder is stable under more bytes and more nesting, hence every strict prefix is an error; encodeList of Model/Bayesnet is what the bytes give. *Verdict:* Bytes are modelled for the values listed; bytes, sets, dates and dictionaries with other keys, which msgspec could also write, are outside the model (Model/MsgPack).

**C153 — A file of samples cut off at any byte is recognised; a complete one gives the samples back** (proved). *Model:* Model/NpyBytes: np.save and np.load byte by byte (header with its padding, values least significant byte first); Spec/SampleFile: what a file holds. *Proof:* the reader applied to the first k bytes is computed for every k. *Verdict:* Arrays of objects (texts among the samples), which numpy pickles, and numpy's own code are outside the model.

**C154 — Geometric means and pooled odds stay accurate in floating-point arithmetic** (proved). *Model:* Model/RoundedGeo: the operations with a rounding after each and computed log and exp; Spec/Geo: the exact mean; Spec/ElemFns: accuracy of log and exp. *Proof:* errors of products, sums and quotient are bounded and carried through the exponential. *Verdict:* OrderOf and the accuracy of log and exp are hypotheses on numpy and libm; infinities and nan are outside.

**C155 — Growth rates, doubling times and extremize in floating-point arithmetic** (partial). *Model:* Model/RoundedGrowth: the operations with a rounding after each and computed log, exp and power; Spec/ElemFns: their accuracy. *Proof:* the rounding of 1 + g is carried through the logarithm; 1 - q is exact above 1/2. *Verdict:* for tiny rates and long times the full property fails (C155_tiny_fails, C155_long_fails); accuracy of log, exp and powers is a hypothesis on the platform's libm.

**C156 — When a call fails** (partial). *Model:* Model/SampleCache, Model/Multicore, Model/Bayesnet: exceptions are values and the state after them is kept. *Proof:* case analysis of where the call fails; induction over the tasks of the pool for overwritten files; concrete histories for the negations. *Verdict:* Caches, retry and bayesnet state proved for every failure; with several cores the exception of a worker is lost and left-over files spoil later calls (negations proved).

**C157 — Lognormal parameters in floating-point arithmetic** (partial). *Model:* Model/RoundedLognorm: the constructor's formulas with a rounding after each operation; Spec/ElemFns: accuracy of the logarithm. *Proof:* relative errors are carried through sums, quotients, square roots and logarithms; 1 + q = 1 for tiny q. *Verdict:* Accuracy proved for all inputs in range; narrow lognormals collapse to a constant (negation proved).

**C158 — Sharpe ratios and standard deviations in floating-point arithmetic** (partial). *Model:* Model/RoundedSharpe: np.mean, np.std and the ratio with a rounding after each operation. *Proof:* mean square deviation from any number equals variance plus squared distance; relative errors are carried through squares, sums and the root; the failing case is evaluated exactly. *Verdict:* Returns that do not vary get a huge ratio instead of none (C158_constant_fails).

**C159 — Bucket percentages in floating-point arithmetic** (partial). *Model:* Model/RoundedBuckets: the same function as in Model/Buckets with the division and the multiplication rounded. *Proof:* relative errors of two roundings are smaller than the gap between neighbouring counts; the failing cases are evaluated exactly. *Verdict:* The total is 100 only up to two roundings, and whole percentages are not exact (C159_total_fails, C159_whole_fails).

**C160 — The texts of get_log_percentiles read back as the percentiles** (partial). *Model:* Model/SciText: Python's format of floats in scientific notation, digit by digit; Spec/SciText: reading such a text as a number, and the shape of the texts. *Proof:* induction over the digits; the scaled number lies between 10^d and 10^(d+1); carries keep the value. *Verdict:* Percentiles are rounded to decimals before formatting, so small ones are shown as 0 (C160_small_fails).

**C161 — one_in in floating-point arithmetic** (partial). *Model:* Model/RoundedOneIn: the division rounded, then rounding to a whole number. *Proof:* two relative errors of one rounding move m by less than 3/8; rounding is monotone; the failing float is evaluated exactly. *Verdict:* Near a half the number is not always the nearest (C161_nearest_fails).

**C162 — laplace over time in floating-point arithmetic** (partial). *Model:* Model/RoundedLaplace: the branches with time, fl after each operation, a computed power. *Proof:* relative errors of the base move the logarithm of the power by at most k times two roundings; monotonicity of each step; a base that rounds to 1. *Verdict:* Range, accuracy and monotonicity proved; a positive chance can come out as 0 (C162_zero_fails).

**C163 — Weighted percentiles in floating-point arithmetic** (partial). *Model:* Model/RoundedWeighted: cumulated weights, quantiles and np.interp with a rounding after every operation. *Proof:* each step is monotone and multiplies the error by one rounding; induction over the points; the failing floats are evaluated exactly. *Verdict:* Bounds and monotonicity proved up to a few roundings; exceeded by a few roundings in C163_top_fails.

**C164 — Updating beta, gamma and lognormal priors in floating-point arithmetic** (partial). *Model:* Model/RoundedUpdate: the formulas of update with a rounding after every operation. *Proof:* relative errors through each step; induction over the evidence; a sum that rounds back to the count. *Verdict:* Everything proved except that every success raises the count, which fails from 2^(p+2) on (C164_stuck_fails).

**C165 — A value left without a weight, in floating-point arithmetic** (partial). *Model:* Model/Rounded (processFl): the weight handling with a rounding after every operation. *Proof:* error bounds for the running sum on both sides of 1; evaluation of the doubles 0.1 and 0.2. *Verdict:* whether one value too many is noticed depends on the rounding when the weights sum to 1 (C165_leftover_fails).

**C166 — The text of one_in with digits reads as the number** (proved). *Model:* Model/OneInDigits, Spec/OneInDigits: the text of a float with at most 15 digits; a reader. *Proof:* induction over the digits: trimming zeros and commas keep the value; round trip through the reader. *Verdict:* at most 15 significant digits, so that the shortest text of the float is the decimal number.

**C167 — Rounding to digits in floating-point arithmetic** (partial). *Model:* Model/RoundedRound: np.round with a rounding after the multiplication and the division. *Proof:* relative errors of the two operations against half a unit; monotone functions; evaluation at two floats. *Verdict:* the code violates the last sentence (C167_nearest_fails, C167_whole_number_fails).

**C168 — Whole-number division of models** (partial). *Model:* Model/Quotient, Spec/Quotient: // on arrays of 64-bit integers and on single Python numbers, next to the main model. *Proof:* induction over the expression: sizes stay below 2^63, so both samplers agree; division with remainder. *Verdict:* one and several samples differ at divisor 0 (C168_zero_fails); -2^63 // -1 (C168_edge_fails).

**C169 — Splitting work over cores in floating-point arithmetic** (proved). *Model:* Model/RoundedCuts: _core_cuts with a rounded quotient. *Proof:* a quotient is at least 1/c below the next whole number, more than one rounding if n < 2^p. *Verdict:* C169_last_fails shows that the limit 2^53 is needed.

**C170 — Tables of percentiles with digits in floating-point arithmetic** (proved). *Model:* Model/RoundedTables: percentiles with a rounding after every operation, then np.round. *Proof:* both steps are monotone; decimals are fixed points of rounding. *Verdict:* C170_beyond_fails: with more digits in the data the table can leave their range.

**C171 — Weights of any size in floating-point numbers with a largest and a smallest one** (partial). *Model:* Model/DoubleWeights: the weights once more on floats with infinities and a rounding into a bounded format. *Proof:* sums of multiples of the finest unit round as with unlimited exponents, so C115 and C116 carry over; quotients differ by at most the finest unit. *Verdict:* Holds while the sum of relative weights is below half the largest float; above the largest float every value is lost (C171_overflow, C171_lost_fails).

**C172 — norm(x, y) for floats of any size** (partial). *Model:* Model/DoubleNorm: the two lines once more on floats with infinities. *Proof:* sums and differences round as with unlimited exponents; halving and dividing err by at most half the finest unit more. *Verdict:* Holds for ends up to a quarter of the largest power of two; above, mean and standard deviation can be infinite (C172_overflow, C172_infinite_fails).

**C173 — Models of positive quantities do not overflow within the range of their exponents** (proved). *Model:* Model/DoubleSample: sampling an expression with a rounding into a bounded format after every operation; Spec/Magnitude: the exponents. *Proof:* induction over the model; within the range the format rounds as with unlimited exponents, then C139. *Verdict:* Full statement; C173_overflow_fails and C173_underflow_fails show that the exponents of the parts matter.

**C174 — Weights on Python 3.12 and later** (proved). *Model:* Model/CompensatedSum: the sum loop of CPython 3.12 with a rounding after every operation. *Proof:* what an addition of floats loses is a float and is computed exactly, then induction over the list. *Verdict:* Sums of floats only; integers and numpy numbers among the weights are added without the correction and are not modelled here. The number of values n must satisfy n 2^-p <= 1/100000, and 8 n^2 2^-p < 1 for the theorems about a left-out weight (n below 33 million for doubles).

**C175 — Updating normal distributions with floats of any size** (partial). *Model:* Model/DoubleUpdate: the update with a rounding into a bounded format after every operation. *Proof:* every intermediate result is zero or within the range of exponents, where the format rounds as with unlimited exponents; then C123. *Verdict:* The full statement, for all floats, is false: C175_extreme_fails. The standard deviations are numpy numbers, as norm(x, y) computes them; with Python floats given as sd= the extreme cases raise instead.

**C176 — Models with subtraction and changes of sign in floats of bounded size** (proved). *Model:* Model/DoubleSample and Model/RoundedSample. *Proof:* induction over the model: every value is a float that is zero or of bounded exponent, where the bounded format rounds as the unlimited one; a sum of two floats is zero or at least the last digit of the smaller. *Verdict:* Full statement; C176_infinite_fails shows that the exponents of the parts matter.

**C177 — Bayes' rule with floats of any size** (partial). *Model:* Model/DoubleBayes: Bayes' rule with a rounding into a bounded format after every operation. *Proof:* monotone rounding keeps numerator below denominator; in the range every intermediate result is rounded as with unlimited exponents, then C122. *Verdict:* The full statement, accuracy for all floats, is false: C177_small_fails. C177_probability covers all probabilities.

**C178 — Odds and probabilities with floats of any size** (proved). *Model:* Model/DoubleOdds: the two conversions with a rounding into a bounded format after every operation. *Proof:* a float that is small enough for its quotient to lose digits is so small that 1 - p and 1 + o are rounded to 1; then C118. *Verdict:* Full statement.

**C179 — Uniform and PERT draws with floats of any size** (partial). *Model:* Model/DoubleDraws: the two samplers with a rounding into a bounded format after every operation. *Proof:* a fraction of the rounded range is at most the exact range: subnormal ranges are exact, larger ones are above the rounding of small products, and C121 covers the rest. *Verdict:* Uniform in full; for pert a draw of 1 from the beta distribution is excluded (C121_pert_fails) and so are ranges that overflow (C179_pert_fails, C179_wide_fails).

**C180 — Kelly stakes with floats of any size** (partial). *Model:* Model/DoubleKelly: kelly with a rounding into a bounded format after every operation. *Proof:* every intermediate result is zero or within the range of exponents, where the format rounds as with unlimited exponents; then C119. *Verdict:* The full statement, for all floats, is false: C180_small_fails.

**C181 — Percentiles with floats of any size** (partial). *Model:* Model/DoublePercentiles: numpy's interpolation with a rounding into a bounded format after every operation. *Proof:* at most half of the rounded difference is added or subtracted, and C179's lemma bounds that by the exact difference; monotone rounding does the rest. *Verdict:* Holds for data with finite differences; C181_wide_fails shows that the median of two floats can be infinite otherwise.

**C182 — Means with floats of any size** (partial). *Model:* Model/DoubleMean: the sum in any order with a rounding into a bounded format after every operation. *Proof:* sums of floats lie on the grid of subnormal numbers, so additions lose nothing to it; by induction sizes at most double with each addition; only the division can be harmed, by half a unit. *Verdict:* Means far from the limit of the format are proved finite and accurate; C182_large_fails proves that the mean of twice 2^1023 is infinite.

**C183 — Relative frequencies with floats of bounded size** (proved). *Model:* Model/DoubleFrequency: the mean of booleans with a rounding into a bounded format after every operation. *Proof:* counts up to 2^p are numbers of the format, so sums are exact by induction on the order; a frequency other than 0 is at least 2^-p and so not subnormal, and C138 applies.

## What the properties found in the code

Each item is a theorem ending in `_fails` (the property named in brackets).

* Weights: an omitted last weight is appended to the caller's own list [C10]; a tuple with an omitted weight
  raises AttributeError [C03]; weights accepted within the tolerance with sum below 1 make mixtures raise
  IndexError for n > 100 with the computed probability [C06]; n samples with total weight t fail with
  probability 1 - t^n [C104].
* Operators: `==` and `!=` both compute `<=` [C14]; boolean samples add as booleans [C13].
* Pipes: a one-sided piped clip, or a piped clip with distributions as bounds, fails [C15].
* `lclip`/`rclip` of a distribution truncates floats when the first sample (or bound) is an integer [C16].
* Sampling: `tdist` and `log_tdist` return the wrong number of samples without an interval or with an empty
  interval [C11]; the location of a t interval is divided by the chi-square factor too [C82].
* Caches: two different distributions can print the same and share samples [C21]; cached calls ignore `n`
  [C22]; object arrays cannot be reloaded [C23]; `set_seed` leaves left-over correlated columns [C19].
* Several cores: fewer samples than cores raises FileNotFoundError, integers come back as floats [C25]; all
  processes can repeat the same random numbers [C26]; two runs in one directory read each other's files [C27].
* Correlation: equal draws are lost when reordering [C30]; a second read with another `n` returns the old
  number of samples [C33]; tolerance 0 and the identity matrix misbehave [C36]; `discrete` hides correlated
  components [C37]; correlating an expression again loses the partner [C74].
* Distributions that print the same are one key of a dict and one item of a long `discrete` list [C95]; dice
  and `discrete` keep the caller's list, so that changing it changes them, up to a die that never stops [C96].
* Constructors: `norm(x, y, mean=)` is half defined [C44]; `invlognorm(lognorm_mean=m)` does not have mean
  `m` [C42]; triangular drops its bounds [C76]; parameters the generator refuses are accepted [C75].
* Cache files of `sample`: a crash while dumping loses the old samples and leaves a file on which every later
  load raises; concurrent dumps can mix, concurrent readers can get zeros that nobody drew [C98].
* `kelly` with a date raises on the day before it and reports losses once it has begun [C99].
* Printed forms: what lognormals, PERT distributions, coins and constant texts print cannot be typed in again; a
  normal distribution with more than two decimals reads back as another one [C150].
* The samples of `a == b` and of `a != b` estimate the chance of `a <= b` [C100].
* `bayesnet`: a list returned without `find` is the cache itself [C50]; a file is ignored when memory holds
  an entry although `memcache=False` [C48]; a failed dump truncates the old file [C77]; left-over worker
  files are counted [C51]; the file of one event function can be used for another [C78].
* `update`: gamma and lognormal updates do not keep the mean between prior and evidence [C79]; `average`
  with `relative_weights` and default weights raises [C80].
* Utilities: `geomean_odds` of one probability raises [C57]; `kelly` below the market price is not the mirrored
  bet [C61]; weighted percentiles depend on the order of ties [C64]; `get_mean_and_ci` ignores the weights,
  and negative credibility inverts the interval [C65]; `get_log_percentiles` returns None for one displayed
  percentile [C66]; `bucket_percentages` fails with its default arguments and mislabels buckets [C67].
* `dist_round`, `dist_exp` and `dist_log` raise for every n ≥ 2 [C83]; so do the growth and doubling
  conversions of distributions [C84].
* The array returned by `sample(..., memcache=True)` is the cached object: changing it changes later samples
  [C85].
* With more than 100 samples a mixture of seven equally weighted distributions can raise `IndexError` because the
  rounded weights sum to less than 1 [C117]; `p_to_odds(odds_to_p(o))` raises for odds of 2^55 and more [C118];
  `pert` can exceed its right end by a rounding [C121]; `norm(x, y)` of neighbouring floats has deviation 0 [C124].
* A positive growth rate below 5.5e-17 raises `ZeroDivisionError` instead of giving its doubling time, and a doubling time
  above 3.6e16 gives growth 0: `log(1 + g)` and `exp(x) - 1` lose the digits that `log1p` and `expm1` keep [C155].
* `lognorm(lognorm_mean=m, lognorm_sd=s)` with `s` below about `5e-9 * m` (for example 1e9 and 5) gets `norm_sd = 0`: all samples
  are equal [C157].
- `sharpe_ratio` of three returns of 0.1 is above 1e15: their computed mean is not 0.1, so the deviation is tiny but not
  zero [C158].
- `bucket_percentages` reports 7 of 100 data as more than 7 percent, and three buckets with a third of the data each as
  less than 100 percent in total [C159].
- `get_log_percentiles` rounds percentiles to decimals before it formats them: 0.01 is shown as `0.0e+00` [C160].
- `one_in` of the float just below 0.4 is `1 in 2`, although its inverse is above 2.5 [C161].
- `laplace` over time answers exactly 0 when the time passed is more than 2^54 times the time remaining [C162].
- Weighted percentiles of doubles can lie a few roundings above all the data, and above a higher percentile [C163].
- A beta prior with a count of 2^55 does not learn from single observations any more [C164].
- Rounded to digits, the float 2.675 (which is below 2.675) becomes 2.68, and the whole number 1801441648776863 becomes 1801441648776863.25 [C167].
- A divisor of 0 in `a // b` of whole numbers raises ZeroDivisionError for one sample, but gives 0 for several; `-2^63 // -1` is negative for several [C168].
- Relative weights whose sum exceeds the largest float (three times 2^1023): no error, but the mixture has no components and cannot be sampled [C171].
- norm(x, y) with x + y of at least 2^1024 has an infinite mean and the standard deviation minus infinity, without an error [C172].
- Updating a normal distribution with both standard deviations below about 1e-162 or above 1e154 gives nan for mean and standard deviation, because the variances are 0 or infinite [C175].
- `simple_bayes` with probabilities whose product underflows raises ZeroDivisionError or returns 0 although the exact answer is 1 or well above 0 [C177].
- `pert(-2**1023, 0, 2**1023, lam=0.25)` draws infinities, because the range overflows; `uniform` raises there [C179].
- `kelly` with a market price near the smallest float returns an infinite expected return [C180].
- The median of `[-2**1023, 2**1023]` is -inf, because numpy's interpolation takes their difference [C181].
- The mean of `[2**1023, 2**1023]` is inf, because the sum is formed before the division [C182].
- Ten weights of 0.1 and eleven values: no error, the eleventh value gets the weight 2^-53; five weights of 0.2 and six values raise ValueError [C165]. This is so on Python 3.11 only: with the sum of 3.12 and later both raise [C174].
* The bounds passed to the first `memcache=True` call stay in the cached samples for all later calls, and on a
  cache hit the bounds of the distribution lose against contradicting bounds of the call [C107].
* Relative weights in a numpy array that sum to zero are accepted [C02]; a distribution that contains a text
  constant can print like a different one [C21]; a dump stopped half-way has destroyed the cache file that was there before (loading it is an error) [C152]; a multi-core `bayesnet` call whose events cannot be encoded makes
  all later ones in that directory raise [C27].
* `update` ignores `evidence_weight` for beta distributions [C125].
* With one task per process, n samples on c cores are worth n/c samples: the error bars are too narrow by the factor
  √c, and `bayesnet` on c cores gives the answer of n/c events [C129, C130].
* `correlate` of variables built from one another, of one variable given twice, or of variables with pending samples
  does not give joint draws of the given variables [C131].
* More samples with the same seed do not extend the old ones for sums of two distributions and for mixtures beyond
  100 samples [C132].
* A division by zero can disappear from the result, raises for one sample but not for several, and for one sample
  from `dist_max`, `dist_min` or a clip does not raise [C133].
* Correlated variables sampled one after the other with several cores: the second call returns the last core's column
  once per core, so the numbers of samples differ and most pairs do not belong together [C134].
* The mean of three times 0.1 is not 0.1 [C138]; with several cores the progress bar of `bayesnet` counts beyond its
  total, and `sample` announces cached samples but draws new ones when the cached value is None [C140].
* Sums and products of whole numbers wrap around beyond 64 bits for several samples but not for one [C141]; a model
  with `quintillion` does so [C142], and several cores lose digits beyond 2^53 [C142].
* `update` of gamma distributions averages the rates instead of adding them, so that the result is not the posterior
  of Bayes' theorem [C143].
* `kelly` reports a stake of 1.0 for best stakes above 0.9995; betting it loses everything at the first loss [C146].
* With several cores an exception raised in a worker is lost: the caller of `sample` or `bayesnet` gets `FileNotFoundError`, and files stay behind. After a failed `bayesnet` call the next one (of any event function, in the same directory) silently uses the old events; after a failed `sample` call a later one whose worker fails returns samples of the earlier distribution [C156].
* If `lclip` of the call is above the `rclip` of the distribution, one core returns `rclip`, several cores return `lclip`; left-over `test-core` files can bring values outside the bounds of the distribution [C148].

## Modelled and not modelled

| file | modelled | not modelled |
|---|---|---|
| utils.py | `_process_weights_values`, `_process_discrete_weights_values`, `_simplify`, `_enlist`, `_safe_len`, `_safe_set`, `_is_na_like`, `_round`, `_core_cuts`, `event*`, `one_in`, `normalize`, percentiles, intervals, geometric means, odds, `laplace`, growth/doubling, `kelly` family, `extremize`, `sharpe_ratio`, `bucket_percentages`, `_init_tqdm`, `_tick_tqdm`, `_flush_tqdm` | `_is_notebook`, pandas detection, texts of `one_in` with more than 15 digits |
| distributions.py | all constructors, operator methods, `dist_fn` and its wrappers, pipes, `__repr__` as far as cache keys need it, `is_continuous_dist`, `contains_correlated` | `plot`, docstring formatting of parameters not used in a theorem |
| samplers.py | every sampler, `mixture_sample`, `sample` with clipping, callables, caches, cache files, cores, correlated variables, progress bars, the lines printed with `verbose`, the bytes of `.npy` files of floats, whole numbers and truth values (C153) | colours and layout of the bars, pickled arrays (texts among the samples), numpy's reader beyond the headers that `np.save` writes, `_get_rng` beyond handing out the generator |
| correlation.py | `correlate`, acceptance checks, `induce_correlation`, `induce_overall`/tolerance checks, diversity check | numerical error of the linear algebra; Cholesky/`ppf`/`spearmanr` are oracles, their defining equations are hypotheses of C73 |
| bayes.py | `simple_bayes`, `bayesnet`, `update`, `average`, the lines printed with `verbose`, the MessagePack bytes of its cache files (C152; values made of `None`, booleans, whole numbers, floats, texts, lists, tuples, dictionaries with texts as keys) | timing, `last_generated` (in C152: any text); msgspec's bytes for sets, byte strings, dates and other keys; msgspec itself is trusted to follow the MessagePack format with the shortest forms |
| rng.py | `set_seed` | numpy's bit generators |

Simplifications that matter when reading a theorem (also stated at each definition):

* 0-d numpy arrays are identified with scalars; two-dimensional results of user functions are `unmodelled`.
* `Counter` compares items by equality of the item type (by hash keys in `Model/HashKeys`, where different texts
  are assumed to have different hashes).
* Dividing by a zero sum of relative weights raises `ZeroDivisionError`, or gives weights that pass the check when
  they come as a numpy array (C02).
* Forked workers start from a copy of the parent's state; the pool assigns every core number exactly once, in
  any distribution over processes; workers of a crashed parent finish. Every task has its own copy of the
  distribution, pickled before the parent draws its own batch.
* `deepcopy` in `correlate` copies the whole heap; only reachable objects matter for the theorems.
* User functions in `dist_fn` are pure; model functions passed to `sample` may read and change the state.
* Percentiles of empty data, negative or all-zero percentile weights, normalising buckets of empty data, and
  logarithms of non-positive numbers are `unmodelled`.
* `argsort` may return any sorting permutation.
* Numbers are exact everywhere except in `Model/Rounded`, `Model/RoundedDists` (C115–C124), `Model/RoundedMean`,
  `Model/RoundedPercentiles`, `Model/RoundedSample` (C137–C139), `Model/RoundedGeo`, `Model/RoundedGrowth`, `Model/RoundedLognorm`, `Model/RoundedSharpe`, `Model/RoundedBuckets`, `Model/RoundedOneIn`, `Model/RoundedLaplace`, `Model/RoundedWeighted`, `Model/RoundedUpdate`, `Model/RoundedRound`, `Model/RoundedTables` and `Model/RoundedCuts` (C154, C155, C157–C159, C161–C165, C167, C169, C170,
  with logarithms, exponentials and powers of bounded relative error), where weights, the
  choice of a mixture's component, odds, `laplace`, `kelly`, the comparison of `event`, `uniform`, `pert`,
  `simple_bayes`, the normal update, the parameters of `norm(x, y)`, percentiles, means, sampled expressions, geometric
  means, growth rates, `extremize` and lognormal parameters are written once more with a rounding after
  every operation. The rounding is any correct rounding to nearest with p binary digits and an unbounded
  exponent (so no overflow or underflow); p = 53 for doubles. `Model/DoubleWeights`, `Model/DoubleNorm`, `Model/DoubleSample` (C171–C173, C176), `Model/DoubleUpdate` (C175), `Model/DoubleBayes` (C177), `Model/DoubleOdds` (C178), `Model/DoubleDraws` (C179), `Model/DoubleKelly` (C180), `Model/DoublePercentiles` (C181), `Model/DoubleMean` (C182) and `Model/DoubleFrequency` (C183) have the bounded exponents of doubles with
  subnormal numbers and infinities, and `Lemmas/Double` shows where both agree. `sum` is the plain sum of Python 3.11, except in
  `Model/CompensatedSum` (C174), which has the compensated sum that CPython uses for floats from 3.12 on.

## Not expressible in this model

Rounding outside `Model/Rounded` (see above), overflow, infinities and `nan` in arithmetic outside `Model/Special` and `Model/Double*` (C133, C171–C173, C175–C183), integer overflow outside `Model/MachineSample`, `Model/WideSample` and `Model/Quotient` (C141, C142, C168), the statistical quality of numpy's bit generator, performance, terminal output beyond C136 and C140,
plotting, pandas objects beyond being converted to lists.

## Testing the theorems against wrong programs

`tools/mutate.py` applies an edit to the model in a scratch copy, replaces every proof that no longer goes
through by `sorry` until everything builds again, and then lists the property theorems that depend on
`sorryAx`. The edit counts as caught only if a theorem of the very property it breaks is among them.
`seeded/LOG.jsonl` has one line for each attempt.

## Trusted base

* Lean's kernel and the axioms `propext`, `Classical.choice`, `Quot.sound` (no others; see `AXIOMS.txt` for
  the list of every theorem). No `sorry`, `native_decide`, `bv_decide`, `implemented_by`, `unsafe`.
* Mathlib's definitions of the real numbers, measures, Gaussian and beta laws, matrices.
* The faithfulness of the model to the Python source (cited line ranges) and to the documented behaviour of
  the numpy/scipy/Python primitives it calls.
