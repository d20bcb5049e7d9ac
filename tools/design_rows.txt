# id | model | proof method
C01 | `processWeightsValues` (Model/Weights), branch by branch | case analysis on the argument shapes, list induction for the final loop
C02 | `normalize` and the relative branch of `processWeightsValues` | field arithmetic on sums, list induction
C03 | `finishWeights`, the branch that appends `1 - sum` | case analysis; witness (a tuple) for the negation
C04 | `fillWeights` | list induction, with missing values dropped first
C05 | `cumsum`, `pickLoop`, `bisectLoop` (Model/Mixture) | loop invariants for both searches, then Lebesgue measure of the set of uniform numbers that pick component i
C06 | same | both searches return the least index with a large enough cumulative weight; measure of the failing set; witness
C07 | `keepPositive` | list induction
C08 | `counter`, `processDiscrete` | counting induction over the list
C09 | `zeroInflated` (Model/ZeroInflated) on top of C05 | case analysis, measure of an interval
C10 | `Processed.callerWeights`: the caller's list object after the call | exact characterisation of when it changes; witness
C11 | `sampleObj` (Model/Sample), all expression trees | structural induction over `Obj`
C12 | `applyClips`, `withClips` | elementwise `max`/`min` lemmas
C13 | `binSamples` (Model/Scalar) | scalar/array case analysis with broadcasting, elementwise `Forall₂`
C14 | the operator methods (Arith) | elementwise; witness for `==`, `!=`
C15 | `Verif/Model/Pipe` (closures as first-class values) | equality of the built objects; witnesses
C16 | `vectorize2`, `lclipElem` | elementwise; output type decided by the first element; witnesses
C17 | `Obj.call`, `callOnce` | induction on the number of calls
C18 | `leafSample`, `mixtureRun`; `RawOk` states numpy's documented ranges | case analysis over the families; induction through mixtures
C19 | `Verif/Model/Program`: lists of `set_seed`/`sample` calls | the result depends on the generator state only, by tree induction, then induction over the program; witness
C20 | `Verif/Model/SampleCache`: memory and file caches as a state machine | invariant over histories of calls
C21 | same, with the printed form of a distribution as key | invariant over histories; unique reading of printed expressions (bracket-balanced text) and of mixtures (one line per component) against the text-free relation `Spec.PrintsAlike`; collision witnesses for `str`
C22 | same | invariant over histories; witness
C23 | same, file contents as values | commuting lemmas for save and load; witnesses
C24 | `coreCuts` (utils.py:181-185) | arithmetic of integer division
C25 | `Verif/Model/Multicore`: fork, one file per core, any assignment of tasks to processes | induction over the assignment; witnesses
C26 | same, forked generator states | direct computation for any generator
C27 | `Verif/Model/TempFiles`: interleaved atomic file operations of several runs | invariant over all interleavings; witnesses
C28 | `dieInit`, `checkFaces` (Model/Dice) | pigeonhole on duplicate-free faces
C29 | `explodeLoop` with fuel | induction on the roll sequence, both directions; fuel monotone
C30 | `induceColumn` (Model/Correlation): unique values, ranks, reorder | permutation arguments; witnesses
C31 | same | order isomorphism between ranks and sorted samples
C32 | `Obj.corr` with the left-over store (Model/Sample) | invariant over histories of reads
C33 | same | same invariant; witnesses
C34 | `Verif/Model/Correlate`: a heap of objects with addresses | frame and freshness lemmas on the heap
C35 | `CorrelationMatrix` spec; uniform matrix test | eigenvalues of `(1-r)I + rJ` by exact quadratic forms
C36 | tolerance check of `induce_correlation` | case analysis; witnesses
C37 | `containsCorrelated` (Model/DistTree) | structural induction; witness
C38 | `normInit` (Model/Params) over ℝ | Mathlib's Gaussian measure; measure of an interval under an affine map
C39 | `lognormInit` | push-forward of the Gaussian under `exp`
C40 | same | algebra of exp/log/sqrt
C41 | `invlognormInit` | push-forward under `1/exp`
C42 | same | Gaussian moment generating function
C43 | `toInit` | case analysis plus C38/C39
C44 | the three constructors with optional fields | case analysis over all presence patterns
C45 | `pertInit`, `leafSample .pert`; beta law as a spec | moments of the beta law, affine push-forward
C46 | `Verif/Model/Bayesnet`: heap of event lists, caches, files | refinement to `answerAbout` on the events used
C47 | same | invariant over histories
C48 | same | invariant over histories; witness
C49 | same | frame lemma over histories that do not write the file
C50 | same, with the caller mutating returned lists | frame lemma; witness
C51 | same, multi-core | induction over cores
C52 | `updateNormal` (Model/Update) | field arithmetic, permutation induction; Bayesian density identity
C53 | `update` for all families | same
C54 | `simpleBayes` | arithmetic; `ProbabilityTheory.cond` on an arbitrary probability space
C55 | `pToOdds`, `oddsToP` (Model/Odds) | case analysis, field arithmetic
C56 | `geomean` | weighted logarithms; list induction
C57 | `geomeanOdds` | C55 and C56; witness
C58 | `laplace` (Model/Forecast) | real analysis
C59 | `doublingTimeToGrowthRate`, `growthRateToDoublingTime` | exp/log algebra
C60 | `kelly` | strict concavity of expected log wealth
C61 | same, below the market price | exact value; witness
C62 | `extremize` | monotonicity of real powers
C63 | `npPercentile`, `getPercentiles` (Model/Percentiles) | linear interpolation in a sorted list
C64 | weighted branch, every `argsort` order | interpolation over mid-ranks; witness with ties
C65 | `getMedianAndCi`, `getMeanAndCi` | C63 plus counting; witnesses
C66 | `getLogPercentiles` | case analysis; witnesses
C67 | `bucketPercentages`, `npHistogram` (Model/Buckets) | counting lemmas; witnesses
C68 | `event`, `leafSample .bernoulli` | Lebesgue measure of `[0, p)`
C69 | `OneMany`, `Samples.simplify` | case analysis
C70 | `sharpeRatio` | algebra of mean and standard deviation
C71 | `isContinuous` (Model/DistTree) | structural induction; witnesses
C72 | all constructors (Model/Constructors) | case analysis: complete acceptance table
C73 | the linear algebra of `induce_correlation` with Cholesky factors given by their equations (Props/TargetScores) | exact matrix algebra
C74 | heap model of `correlate` | witness
C75 | constructors and sampler together | tree-free case analysis over families; witness
C76 | same | case analysis; witness
C77 | file dump in `bayesnet`, encoder that may fail midway | case analysis; witness
C78 | `Verif/Model/Bayesnet` | invariant over histories; witness
C79 | `update` | convexity; witnesses
C80 | `average` | reduction to C01/C02/C05; witness
C81 | `leafSample` against a table of named laws (Spec/Laws) | complete characterisation per family
C82 | `tInterval`, and the stream model of C86 | exact identity between draws; witness; law of the ratio through the product measure
C83 | `distRound`, `distCeil`, `distFloor`, `distLog`, `distExp`, `roundSamples` | pointwise characterisation; negations for every n ≥ 2; rounding specified in Spec/Rounding
C84 | `growthToDoublingDist`, `doublingToGrowthDist` | reduction to the scalar conversions of C60; negations for every n ≥ 2
C85 | `sample` on a heap of arrays (`Model/SampleHeap`) | refinement of the heap model to the value model (`SampleCache`) for every history; negation for every distribution
C86 | `sampleObj` with an ideal source (`Model/IdealSource`: the generator state is an infinite stream of independent inputs, each number uses one) | induction over the expression: each program maps the stream to (result, rest) and pushes the product measure to (law of the result) × (stream); independent of `Denotes` (`Spec/Denote`), which gives the law without mentioning sampling
C87 | as C86 | Chebyshev's and Hoeffding's inequalities (Mathlib) for the independent samples of C86
C88 | constructors (C38, C39) followed by `sampleObj` with an ideal source | C87 with the probability of the interval from C38/C39; convolution of Gaussian measures for the sum
C89 | event functions as programs (`Model/EventFn.lean`), their laws by a small inductive specification (`Spec/EventLaw.lean`), `bayesnet` of `Model/Bayesnet.lean`, ideal generator | induction over the event function, then Hoeffding's inequality for the two counts
C90 | `getPercentiles`, `getMeanAndCI`, `getMedianAndCI` applied to the output of `sampleObj` with an ideal source; quantiles in `Spec/Quantile.lean` | ranks of the percentile (C63) turned into frequencies of two tails, Hoeffding's inequality, C38/C39 for the intervals
C91 | `EventFn.obj` turns a model of a Python function (draws, branches, a result) into what `sample` calls n times; the ideal source of C86 | law of one call from C89's `EventLaw`, then induction over the n calls, each on the rest of the stream
C92 | `runAll` runs k calls one after the other on the same generator | induction over the calls: what a call leaves of the stream is independent of what it returned and is again an ideal stream
C93 | `CorrGroup.induce` (Model/Correlation), histories of Props/JointDraw | counting distinct values; induction over the explained history
C94 | explodeLoop, singleRoll, dieInit, leafSample over an ideal source | first-step analysis on streams of inputs: the run ends almost surely, its total and the rest of the stream have a product law, the fixed-point equation has one solution; a patient loop agrees with the unbounded run; the bounded loop is unfinished with chance (k/s)^(f+1)
C95 | items with keys (value of a number, printed form of a distribution), `counterBy`, dict displays as lists of entries | counting induction over the list for every property that respects keys; the keys of distributions are characterised by the printed-form theorem of C21; witnesses
C96 | the caller's lists as cells of a heap; what each constructor keeps (`build`) and what it means later (`Kept.now`) | induction over the writes; case analysis over constructors; for the endless die induction over the bound on extra rolls
C97 | joint sampling of a group under ideal randomness | reordering commutes with exchanging rows and sees only the order within columns, so success is independent of each column and the reordered column is exchangeable; Lemmas/RankInvariance, Lemmas/Exchange, Lemmas/CorrelatedLaw, Props/CorrelatedLaw
C98 | file as blocks (gap, header, numbers), one operation at a time (`Model/CacheFileSteps`); schedules in `Spec/CacheFiles` | last truncation and last header of any interleaving; exact outcome at every crash point; witnesses for the mixture and the zeros
C99 | `kellyAt` (Model/KellyDate): `kelly` with the whole days until the date | equations of real powers against `Spec.IsYearlyReturn`; monotonicity of rounding; exact error condition
C100 | stream model of C86 with truth values as results | law of pairs through the elementwise comparison, Hoeffding bound; == and != proved to estimate <=
C101 | the sampler on an ideal random stream | the law of the samples without bounds (C86) is carried through the clipping step; the preimages of the bounds and of sets between them are computed
C102 | the sampler on an ideal random stream | laws from C86, strong law of large numbers, moments of product measures
C103 | bayesnet on an ideal random stream | the used events are independent (C89), the result is a quotient of two averages, both converge
C104 | mixture sampling for few and for many samples | the picked component does not depend on the last weight while the uniform number stays within the total; for more than 100 samples and a total t < 1 the negation: the call raises with probability 1 - t^n, from the law of the uniform numbers
C105 | `SameSamples`: both expressions almost surely give vectors of numbers with equal joint law | laws of the expressions (C86) and equality of those laws: Gaussian convolution, product and map of measures, sums of weighted laws
C106 | `.bin` of two `.corr` members; the first call draws the whole group, the second takes the column left over | each column has its member's own law given success (C97), Chebyshev for each column, union bound
C107 | histories of `cachedSample` calls with bounds (Model/SampleCache.lean) | invariant on the entry of the key over all histories: within the bounds of d (bounds in order); drawn without bounds (no bounds in the history); negation: the clipped samples are stored, so the bounds of the first call stay for all later ones; on a hit the bounds of d do not win over contradicting bounds of the call
C108 | `oneIn`, `oneInText` (Model/Forecast.lean, Model/OneIn.lean) | nearest integer with ties to even by the rounding lemmas, monotone by comparing nearest integers, digit groups by induction on the digits; the text of a float (digits > 0) is not modelled
C109 | `chooseRun`, `discreteChoose`, `doubleResolve`, `discreteOf`, `mixtureOf` (Model/DiscreteDists.lean) | naturality of the choice in the items, then the law from the mixture of the place numbers (C86); resolving twice by unfolding both sides over the same uniform number
C110 | `sampleObj`, `leafSample` (Model); the documented laws `numpyLaw` and the rules `MeanIs`, `MomentsAre` (Spec) | moments of every documented law computed from its density or mass function, induction over the rules with Fubini for products, then the laws of large numbers of C102; a source with the documented laws is constructed (a product measure), so the hypothesis is met
C111 | `sampleObj` (Model/Sampling.lean), `sampleChance`, `stdError` (Spec/Accuracy.lean) | the samples are independent draws of the law (C86); central limit theorem and Slutsky's theorem (Mathlib) for the pair (error, variance of the samples); portmanteau theorem for the sets in question
C112 | `sampleObj`, `leafSample`, `getPercentiles` (Model); the rules `ChancesAre` (Spec) | distribution function of every documented law computed from its density or mass function, induction over the rules, then C86, C87 and C90; the hypothesis on the generator is met by the source of C110
C113 | `sampleObj`, `leafSample` (Model); the enumeration `OutcomesAre`, `chanceOf`, `expectOf` (Spec) | the law of the model is shown to be the sum of point masses of the list (products, push-forwards and weighted sums of such laws), then C86, C87, C102
C114 | `bayesnet`, `EventFn.run`, `sampleObj` (Model); the enumeration `LeavesAre`, `branchChance`, `branchSum` (Spec) | induction over the branches: the law of the returned value is the sum of point masses of the leaves; then the bounds of C89 and the limit of C103
C115 | `normalizeFl`, `sumFl` (Model/Rounded); `RoundsTo` (Spec/Float) | bound of the accumulated error of a sum of non-negative numbers by induction; negation: 1/3 is not a float
C116 | `processFl` (Model/Rounded) | error bounds of C115; processing the kept weights again is the identity
C117 | `pickLargeFl`, `pickSmallFl`, `cumsumFl` (Model/Rounded) | the choice is characterised by the rounded partial sums; counting of grid points; negation by computing the sum of seven doubles 1/7
C118 | `pToOddsFl`, `oddsToPFl`, `laplaceFl` (Model/Rounded) | every rounding as a factor 1 + d with d at most 2^(-p) in size; algebra of the factors
C119 | `kellyFl` (Model/Rounded) | propagation of absolute errors through the nine operations
C120 | `happensFl`, `gridPoint` (Model/Rounded) | counting grid points below q
C121 | `uniformFl`, `pertFl` (Model/RoundedDists) | a float times a float below 1 rounds to a smaller float; hence the scaled number never exceeds the exact width
C122 | `simpleBayesFl` (Model/RoundedDists) | roundings as factors near 1
C123 | `updateMeanFl`, `updateSdFl` (Model/RoundedDists) | roundings as factors near 1 in a weighted sum; square root of a factor near 1
C124 | `normFl` (Model/RoundedDists) | halving is exact; roundings as factors near 1
C125 | `updateAll` (Model/Update) | precisions (shapes) add up, and are linear in the weight; limit of a quotient
C126 | `averageObj` (Model/AverageObj) | law of a mixture (C86) applied to the processed weights (C80)
C127 | `getPercentiles`, `sampleObj` | Hoeffding at finitely many quantiles of the law and monotonicity between them; percentile from a fraction (C90)
C128 | `sampleObj`, `leafSample`, `mixtureRun` on two models | two runs in lock step, by induction on the pair of models; that numpy makes its numbers from standard ones (`FromStandard`) is an assumption
C129 | `sampleCores`, `runWorkers` (Model/Multicore) on an ideal random stream | induction over the schedule: every batch is a vector of independent draws; convexity of the square for the average over batches, union bound for chances; the negation from the repeated batch of C26 and the central limit theorem
C130 | `bayesnet`, `generateEvents`, `runEventWorkers`, `writeBatch`, `collectEvents` (Model/Bayesnet) on an ideal random stream | induction over the schedule: every batch is a vector of independent events; Hoeffding's inequality for each batch and each count, union bound, averaging over batches; the negation from repeated batches
C131 | `heapSample` follows references on the heap of `correlate`, with a recursion limit; `correlateSt` copies kept samples | refinement to the tree sampler by induction on the unfolding (C131_refines), instantiated for the results of correlate on separate variables (C131_correlated_partial), invariants of all programs (C131_program); the code fails for a variable built from another (C131_built_from_fails: no read ever returns), the same variable twice (C131_twice_fails) and kept samples copied by correlate (C131_pending_fails)
C132 | `sampleObj` run twice from one state with n and n + k samples, any sequential generator (`Sequential`) | every step of the sampler on arrays is shown to commute with taking the first n; induction over the models with one source of randomness (`OneSource`, which includes Python functions); FALSE for sums of two distributions (C132_sum_fails) and for mixtures beyond 100 samples (C132_mixture_fails)
C133 | `Model/Special`: floats with infinities, nan and negative zero, otherwise exact; `evalMany` (arrays), `evalOne` (one sample, knowing whether it is a numpy number), `xMean`, `boundMany`; `Model/SpecialSample`: the sampler over them | induction over expressions; C133_extends shows that this model continues the main one; FALSE that divisions by zero always show (C133_hidden_fails), that one sample and several agree (C133_one_many_fails), and that one sample always raises (C133_one_numpy_fails)
C134 | Every task of the pool works on its own pickled copy of the distribution, so of the left-over samples (`onCopy`) | induction over the schedule: each core starts with the parent's left-over samples; the step lemma of C32 for each batch; negations for two calls, a positive theorem for expressions and for the end of the two results
C135 | Spec/Total (sum of copies), Lemmas/FamilyLaws (laws), Props/Algebra (same law, same samples) | a law with exponential moments near 0 is determined by them (analytic continuation to the characteristic function): gamma, binomial, chi-square; tails for minima and rounding up, distribution functions for maxima and powers, convolution of densities for uniform sums; induction on the number of terms; then C105
C136 | Model/Verbose: the sampler once more, with the progress bars it opens, ticks and closes | induction over the expression: forgetting the bars gives the sampler of Model/Sample; below a million samples no nested call turns verbose on; each loop advances its own bar by its number of rounds times the number of cores
C137 | Model/RoundedPercentiles: np.percentile with a rounding after each operation, as numpy computes it | rounding is monotone and nearest: a float times less than one half rounds below its half, so the two branches of the interpolation never cross; the exact interpolation is Lipschitz in the position
C138 | Model/RoundedMean: np.mean with a rounding after each addition, in any order, and in numpy's pairwise order | induction over the tree of additions; the depth of numpy's tree is at most 19 + log2 n; sums of zeros and ones are exact
C139 | Model/RoundedSample: the sampler with a rounding after each operation on floats, Spec/Accumulated: which models have no cancellation and how many roundings they collect | induction over the model: a factor of (1+u)/(1-u) for each rounding, factors of products multiply; whole numbers up to 2^53 are floats
C140 | Model/BayesMessages and Model/SampleMessages: the functions with the lines they print, Spec/Messages: what the lines claim | the printing functions project to the silent ones; then cases over caches, files and errors, induction over the events for the bar
C141 | Model/MachineSample: arrays of 64-bit integers, single numbers that are Python's or numpy's; Spec/Machine: numbers that fit, what is left in 64 bits, how large a model can get | induction over the model: +, -, * and powers commute with the remainder modulo 2^64, comparisons are between numbers that fit; the run is that of the exact sampler
C142 | Model/WideSample: arrays of 64-bit integers or of Python objects, collecting batches as floats, the named numbers; Spec/WideNumbers: numbers too wide, models whose results are kept | induction over the model: results of objects are exact, the others fit; batches of several cores are runs of the same sampler; odd numbers above 2^53 are no floats
C143 | Spec/Posterior: posterior and predictive distributions, likelihoods of trials, events, measurements; Model/Update, Model/UpdateObj, Model/Forecast | densities times likelihoods are multiples of densities; posterior is conditional probability (posterior_is_conditional); gamma: compare means
C144 | Spec/Experiment: the event function with a loop of N trials; Model/EventFn, Model/Bayesnet, Model/Update, Model/Forecast | induction over the trials gives the joint law; conditional law = posterior of C143; bounds of C89 and C103
C145 | Model/Odds and Model/Update as before | odds form of simple_bayes (C54) and of geomean_odds (C57); weighted geometric mean is homogeneous, inverts and is monotone; witness 1/5, 4/5 for geomean
C146 | Spec/RepeatedBets: wealth after a list of outcomes; Model/Forecast, Model/Sampler as before | log wealth counts the wins; frequency bound of C87; log x <= x - 1 for the loss by rounding; witness 0.99985 at price 1/2
C147 | Model/DateText: strptime with its regular expression, validity of a datetime, toordinal; Spec/Calendar: leap years, lengths of months, next day, ways to write a date | characterisation of each group of the regular expression; induction over the next day for the numbering
C148 | Model/Multicore: workers, files, collection and the bounds applied again at the end | files characterised by induction over the schedule, clamping twice is clamping once if bounds are in order, measure-preserving maps for the law; concrete witnesses for the two violations
C149 | Model/Bayesnet, Model/Update: memory cache, event lists, filtering, np.mean of booleans, simple_bayes | the cached list is preserved over all histories (induction), the answers are ratios of shares of it, and shares form a probability
C150 | Model/CallText: signatures, Python's binding of arguments, constructors by name; Spec/PrintedCall: text of a call | case by case over the constructors; texts compared symbolically
C151 | Model/Percentiles: np.percentile, weighted percentiles, intervals | through the specification of a percentile; counting argument for sorted lists
C152 | Model/MsgPack: MessagePack bytes written and read (msgspec), cache and core files; Spec/EventFile: values, Storable, asRead | mutual induction over values: decoder inverts encoder, decoder is stable under more bytes and more nesting, hence every strict prefix is an error; encodeList of Model/Bayesnet is what the bytes give
C153 | Model/NpyBytes: np.save and np.load byte by byte (header with its padding, values least significant byte first); Spec/SampleFile: what a file holds | the reader applied to the first k bytes is computed for every k
C154 | Model/RoundedGeo: the operations with a rounding after each and computed log and exp; Spec/Geo: the exact mean; Spec/ElemFns: accuracy of log and exp | errors of products, sums and quotient are bounded and carried through the exponential
C155 | Model/RoundedGrowth: the operations with a rounding after each and computed log, exp and power; Spec/ElemFns: their accuracy | the rounding of 1 + g is carried through the logarithm; 1 - q is exact above 1/2
C156 | Model/SampleCache, Model/Multicore, Model/Bayesnet: exceptions are values and the state after them is kept | case analysis of where the call fails; induction over the tasks of the pool for overwritten files; concrete histories for the negations
C157 | Model/RoundedLognorm: the constructor's formulas with a rounding after each operation; Spec/ElemFns: accuracy of the logarithm | relative errors are carried through sums, quotients, square roots and logarithms; 1 + q = 1 for tiny q
C158 | Model/RoundedSharpe: np.mean, np.std and the ratio with a rounding after each operation | mean square deviation from any number equals variance plus squared distance; relative errors are carried through squares, sums and the root; the failing case is evaluated exactly
C159 | Model/RoundedBuckets: the same function as in Model/Buckets with the division and the multiplication rounded | relative errors of two roundings are smaller than the gap between neighbouring counts; the failing cases are evaluated exactly
C160 | Model/SciText: Python's format of floats in scientific notation, digit by digit; Spec/SciText: reading such a text as a number, and the shape of the texts | induction over the digits; the scaled number lies between 10^d and 10^(d+1); carries keep the value
C161 | Model/RoundedOneIn: the division rounded, then rounding to a whole number | two relative errors of one rounding move m by less than 3/8; rounding is monotone; the failing float is evaluated exactly
C162 | Model/RoundedLaplace: the branches with time, fl after each operation, a computed power | relative errors of the base move the logarithm of the power by at most k times two roundings; monotonicity of each step; a base that rounds to 1
C163 | Model/RoundedWeighted: cumulated weights, quantiles and np.interp with a rounding after every operation | each step is monotone and multiplies the error by one rounding; induction over the points; the failing floats are evaluated exactly
C164 | Model/RoundedUpdate: the formulas of update with a rounding after every operation | relative errors through each step; induction over the evidence; a sum that rounds back to the count
C165 | Model/Rounded (processFl): the weight handling with a rounding after every operation | error bounds for the running sum on both sides of 1; evaluation of the doubles 0.1 and 0.2
C166 | Model/OneInDigits, Spec/OneInDigits: the text of a float with at most 15 digits; a reader | induction over the digits: trimming zeros and commas keep the value; round trip through the reader
C167 | Model/RoundedRound: np.round with a rounding after the multiplication and the division | relative errors of the two operations against half a unit; monotone functions; evaluation at two floats
C168 | Model/Quotient, Spec/Quotient: // on arrays of 64-bit integers and on single Python numbers, next to the main model | induction over the expression: sizes stay below 2^63, so both samplers agree; division with remainder
C169 | Model/RoundedCuts: _core_cuts with a rounded quotient | a quotient is at least 1/c below the next whole number, more than one rounding if n < 2^p
C170 | Model/RoundedTables: percentiles with a rounding after every operation, then np.round | both steps are monotone; decimals are fixed points of rounding
C171 | Model/DoubleWeights: the weights once more on floats with infinities and a rounding into a bounded format | sums of multiples of the finest unit round as with unlimited exponents, so C115 and C116 carry over; quotients differ by at most the finest unit
C172 | Model/DoubleNorm: the two lines once more on floats with infinities | sums and differences round as with unlimited exponents; halving and dividing err by at most half the finest unit more
C173 | Model/DoubleSample: sampling an expression with a rounding into a bounded format after every operation; Spec/Magnitude: the exponents | induction over the model; within the range the format rounds as with unlimited exponents, then C139
C174 | Model/CompensatedSum: the sum loop of CPython 3.12 with a rounding after every operation | what an addition of floats loses is a float and is computed exactly, then induction over the list
C175 | Model/DoubleUpdate: the update with a rounding into a bounded format after every operation | every intermediate result is zero or within the range of exponents, where the format rounds as with unlimited exponents; then C123
C176 | Model/DoubleSample and Model/RoundedSample | induction over the model: every value is a float that is zero or of bounded exponent, where the bounded format rounds as the unlimited one; a sum of two floats is zero or at least the last digit of the smaller
C177 | Model/DoubleBayes: Bayes' rule with a rounding into a bounded format after every operation | monotone rounding keeps numerator below denominator; in the range every intermediate result is rounded as with unlimited exponents, then C122
C178 | Model/DoubleOdds: the two conversions with a rounding into a bounded format after every operation | a float that is small enough for its quotient to lose digits is so small that 1 - p and 1 + o are rounded to 1; then C118
C179 | Model/DoubleDraws: the two samplers with a rounding into a bounded format after every operation | a fraction of the rounded range is at most the exact range: subnormal ranges are exact, larger ones are above the rounding of small products, and C121 covers the rest
C180 | Model/DoubleKelly: kelly with a rounding into a bounded format after every operation | every intermediate result is zero or within the range of exponents, where the format rounds as with unlimited exponents; then C119
C181 | Model/DoublePercentiles: numpy's interpolation with a rounding into a bounded format after every operation | at most half of the rounded difference is added or subtracted, and C179's lemma bounds that by the exact difference; monotone rounding does the rest
C182 | Model/DoubleMean: the sum in any order with a rounding into a bounded format after every operation | sums of floats lie on the grid of subnormal numbers, so additions lose nothing to it; by induction sizes at most double with each addition; only the division can be harmed, by half a unit
C183 | Model/DoubleFrequency: the mean of booleans with a rounding into a bounded format after every operation | counts up to 2^p are numbers of the format, so sums are exact by induction on the order; a frequency other than 0 is at least 2^-p and so not subnormal, and C138 applies
