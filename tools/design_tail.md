## What the properties found in the code

Each item is a theorem ending in `_fails` (the property named in brackets).

* Weights: an omitted last weight is appended to the caller's own list [C10]; a tuple with an omitted weight
  raises AttributeError [C03]; weights accepted within the tolerance with sum below 1 make mixtures raise
  IndexError for n > 100 with the computed probability [C06]; n samples with total weight t fail with
  probability 1 - t^n [C104].
* Operators: `==` and `!=` both compute `<=` [C14]; boolean samples add as booleans [C13].
* Pipes: a one-sided piped clip, or a piped clip with distributions as bounds, fails [C15].
* `lclip`/`rclip` of a distribution truncates floats when the first sample (or bound) is an integer [C16].
* Sampling: `tdist` and `log_tdist` return the wrong number of samples without an interval or with an empty
  interval [C11]; the location of a t interval is divided by the chi-square factor too [C82].
* Caches: two different distributions can print the same and share samples [C21]; cached calls ignore `n`
  [C22]; object arrays cannot be reloaded [C23]; `set_seed` leaves left-over correlated columns [C19].
* Several cores: fewer samples than cores raises FileNotFoundError, integers come back as floats [C25]; all
  processes can repeat the same random numbers [C26]; two runs in one directory read each other's files [C27].
* Correlation: equal draws are lost when reordering [C30]; a second read with another `n` returns the old
  number of samples [C33]; tolerance 0 and the identity matrix misbehave [C36]; `discrete` hides correlated
  components [C37]; correlating an expression again loses the partner [C74].
* Distributions that print the same are one key of a dict and one item of a long `discrete` list [C95]; dice
  and `discrete` keep the caller's list, so that changing it changes them, up to a die that never stops [C96].
* Constructors: `norm(x, y, mean=)` is half defined [C44]; `invlognorm(lognorm_mean=m)` does not have mean
  `m` [C42]; triangular drops its bounds [C76]; parameters the generator refuses are accepted [C75].
* Cache files of `sample`: a crash while dumping loses the old samples and leaves a file on which every later
  load raises; concurrent dumps can mix, concurrent readers can get zeros that nobody drew [C98].
* `kelly` with a date raises on the day before it and reports losses once it has begun [C99].
* Printed forms: what lognormals, PERT distributions, coins and constant texts print cannot be typed in again; a
  normal distribution with more than two decimals reads back as another one [C150].
* The samples of `a == b` and of `a != b` estimate the chance of `a <= b` [C100].
* `bayesnet`: a list returned without `find` is the cache itself [C50]; a file is ignored when memory holds
  an entry although `memcache=False` [C48]; a failed dump truncates the old file [C77]; left-over worker
  files are counted [C51]; the file of one event function can be used for another [C78].
* `update`: gamma and lognormal updates do not keep the mean between prior and evidence [C79]; `average`
  with `relative_weights` and default weights raises [C80].
* Utilities: `geomean_odds` of one probability raises [C57]; `kelly` below the market price is not the mirrored
  bet [C61]; weighted percentiles depend on the order of ties [C64]; `get_mean_and_ci` ignores the weights,
  and negative credibility inverts the interval [C65]; `get_log_percentiles` returns None for one displayed
  percentile [C66]; `bucket_percentages` fails with its default arguments and mislabels buckets [C67].
* `dist_round`, `dist_exp` and `dist_log` raise for every n ≥ 2 [C83]; so do the growth and doubling
  conversions of distributions [C84].
* The array returned by `sample(..., memcache=True)` is the cached object: changing it changes later samples
  [C85].
* With more than 100 samples a mixture of seven equally weighted distributions can raise `IndexError` because the
  rounded weights sum to less than 1 [C117]; `p_to_odds(odds_to_p(o))` raises for odds of 2^55 and more [C118];
  `pert` can exceed its right end by a rounding [C121]; `norm(x, y)` of neighbouring floats has deviation 0 [C124].
* A positive growth rate below 5.5e-17 raises `ZeroDivisionError` instead of giving its doubling time, and a doubling time
  above 3.6e16 gives growth 0: `log(1 + g)` and `exp(x) - 1` lose the digits that `log1p` and `expm1` keep [C155].
* `lognorm(lognorm_mean=m, lognorm_sd=s)` with `s` below about `5e-9 * m` (for example 1e9 and 5) gets `norm_sd = 0`: all samples
  are equal [C157].
- `sharpe_ratio` of three returns of 0.1 is above 1e15: their computed mean is not 0.1, so the deviation is tiny but not
  zero [C158].
- `bucket_percentages` reports 7 of 100 data as more than 7 percent, and three buckets with a third of the data each as
  less than 100 percent in total [C159].
- `get_log_percentiles` rounds percentiles to decimals before it formats them: 0.01 is shown as `0.0e+00` [C160].
- `one_in` of the float just below 0.4 is `1 in 2`, although its inverse is above 2.5 [C161].
- `laplace` over time answers exactly 0 when the time passed is more than 2^54 times the time remaining [C162].
- Weighted percentiles of doubles can lie a few roundings above all the data, and above a higher percentile [C163].
- A beta prior with a count of 2^55 does not learn from single observations any more [C164].
- Rounded to digits, the float 2.675 (which is below 2.675) becomes 2.68, and the whole number 1801441648776863 becomes 1801441648776863.25 [C167].
- A divisor of 0 in `a // b` of whole numbers raises ZeroDivisionError for one sample, but gives 0 for several; `-2^63 // -1` is negative for several [C168].
- Relative weights whose sum exceeds the largest float (three times 2^1023): no error, but the mixture has no components and cannot be sampled [C171].
- norm(x, y) with x + y of at least 2^1024 has an infinite mean and the standard deviation minus infinity, without an error [C172].
- Updating a normal distribution with both standard deviations below about 1e-162 or above 1e154 gives nan for mean and standard deviation, because the variances are 0 or infinite [C175].
- `simple_bayes` with probabilities whose product underflows raises ZeroDivisionError or returns 0 although the exact answer is 1 or well above 0 [C177].
- `pert(-2**1023, 0, 2**1023, lam=0.25)` draws infinities, because the range overflows; `uniform` raises there [C179].
- `kelly` with a market price near the smallest float returns an infinite expected return [C180].
- The median of `[-2**1023, 2**1023]` is -inf, because numpy's interpolation takes their difference [C181].
- The mean of `[2**1023, 2**1023]` is inf, because the sum is formed before the division [C182].
- Ten weights of 0.1 and eleven values: no error, the eleventh value gets the weight 2^-53; five weights of 0.2 and six values raise ValueError [C165]. This is so on Python 3.11 only: with the sum of 3.12 and later both raise [C174].
* The bounds passed to the first `memcache=True` call stay in the cached samples for all later calls, and on a
  cache hit the bounds of the distribution lose against contradicting bounds of the call [C107].
* Relative weights in a numpy array that sum to zero are accepted [C02]; a distribution that contains a text
  constant can print like a different one [C21]; a dump stopped half-way has destroyed the cache file that was there before (loading it is an error) [C152]; a multi-core `bayesnet` call whose events cannot be encoded makes
  all later ones in that directory raise [C27].
* `update` ignores `evidence_weight` for beta distributions [C125].
* With one task per process, n samples on c cores are worth n/c samples: the error bars are too narrow by the factor
  √c, and `bayesnet` on c cores gives the answer of n/c events [C129, C130].
* `correlate` of variables built from one another, of one variable given twice, or of variables with pending samples
  does not give joint draws of the given variables [C131].
* More samples with the same seed do not extend the old ones for sums of two distributions and for mixtures beyond
  100 samples [C132].
* A division by zero can disappear from the result, raises for one sample but not for several, and for one sample
  from `dist_max`, `dist_min` or a clip does not raise [C133].
* Correlated variables sampled one after the other with several cores: the second call returns the last core's column
  once per core, so the numbers of samples differ and most pairs do not belong together [C134].
* The mean of three times 0.1 is not 0.1 [C138]; with several cores the progress bar of `bayesnet` counts beyond its
  total, and `sample` announces cached samples but draws new ones when the cached value is None [C140].
* Sums and products of whole numbers wrap around beyond 64 bits for several samples but not for one [C141]; a model
  with `quintillion` does so [C142], and several cores lose digits beyond 2^53 [C142].
* `update` of gamma distributions averages the rates instead of adding them, so that the result is not the posterior
  of Bayes' theorem [C143].
* `kelly` reports a stake of 1.0 for best stakes above 0.9995; betting it loses everything at the first loss [C146].
* With several cores an exception raised in a worker is lost: the caller of `sample` or `bayesnet` gets `FileNotFoundError`, and files stay behind. After a failed `bayesnet` call the next one (of any event function, in the same directory) silently uses the old events; after a failed `sample` call a later one whose worker fails returns samples of the earlier distribution [C156].
* If `lclip` of the call is above the `rclip` of the distribution, one core returns `rclip`, several cores return `lclip`; left-over `test-core` files can bring values outside the bounds of the distribution [C148].

## Modelled and not modelled

| file | modelled | not modelled |
|---|---|---|
| utils.py | `_process_weights_values`, `_process_discrete_weights_values`, `_simplify`, `_enlist`, `_safe_len`, `_safe_set`, `_is_na_like`, `_round`, `_core_cuts`, `event*`, `one_in`, `normalize`, percentiles, intervals, geometric means, odds, `laplace`, growth/doubling, `kelly` family, `extremize`, `sharpe_ratio`, `bucket_percentages`, `_init_tqdm`, `_tick_tqdm`, `_flush_tqdm` | `_is_notebook`, pandas detection, texts of `one_in` with more than 15 digits |
| distributions.py | all constructors, operator methods, `dist_fn` and its wrappers, pipes, `__repr__` as far as cache keys need it, `is_continuous_dist`, `contains_correlated` | `plot`, docstring formatting of parameters not used in a theorem |
| samplers.py | every sampler, `mixture_sample`, `sample` with clipping, callables, caches, cache files, cores, correlated variables, progress bars, the lines printed with `verbose`, the bytes of `.npy` files of floats, whole numbers and truth values (C153) | colours and layout of the bars, pickled arrays (texts among the samples), numpy's reader beyond the headers that `np.save` writes, `_get_rng` beyond handing out the generator |
| correlation.py | `correlate`, acceptance checks, `induce_correlation`, `induce_overall`/tolerance checks, diversity check | numerical error of the linear algebra; Cholesky/`ppf`/`spearmanr` are oracles, their defining equations are hypotheses of C73 |
| bayes.py | `simple_bayes`, `bayesnet`, `update`, `average`, the lines printed with `verbose`, the MessagePack bytes of its cache files (C152; values made of `None`, booleans, whole numbers, floats, texts, lists, tuples, dictionaries with texts as keys) | timing, `last_generated` (in C152: any text); msgspec's bytes for sets, byte strings, dates and other keys; msgspec itself is trusted to follow the MessagePack format with the shortest forms |
| rng.py | `set_seed` | numpy's bit generators |

Simplifications that matter when reading a theorem (also stated at each definition):

* 0-d numpy arrays are identified with scalars; two-dimensional results of user functions are `unmodelled`.
* `Counter` compares items by equality of the item type (by hash keys in `Model/HashKeys`, where different texts
  are assumed to have different hashes).
* Dividing by a zero sum of relative weights raises `ZeroDivisionError`, or gives weights that pass the check when
  they come as a numpy array (C02).
* Forked workers start from a copy of the parent's state; the pool assigns every core number exactly once, in
  any distribution over processes; workers of a crashed parent finish. Every task has its own copy of the
  distribution, pickled before the parent draws its own batch.
* `deepcopy` in `correlate` copies the whole heap; only reachable objects matter for the theorems.
* User functions in `dist_fn` are pure; model functions passed to `sample` may read and change the state.
* Percentiles of empty data, negative or all-zero percentile weights, normalising buckets of empty data, and
  logarithms of non-positive numbers are `unmodelled`.
* `argsort` may return any sorting permutation.
* Numbers are exact everywhere except in `Model/Rounded`, `Model/RoundedDists` (C115–C124), `Model/RoundedMean`,
  `Model/RoundedPercentiles`, `Model/RoundedSample` (C137–C139), `Model/RoundedGeo`, `Model/RoundedGrowth`, `Model/RoundedLognorm`, `Model/RoundedSharpe`, `Model/RoundedBuckets`, `Model/RoundedOneIn`, `Model/RoundedLaplace`, `Model/RoundedWeighted`, `Model/RoundedUpdate`, `Model/RoundedRound`, `Model/RoundedTables` and `Model/RoundedCuts` (C154, C155, C157–C159, C161–C165, C167, C169, C170,
  with logarithms, exponentials and powers of bounded relative error), where weights, the
  choice of a mixture's component, odds, `laplace`, `kelly`, the comparison of `event`, `uniform`, `pert`,
  `simple_bayes`, the normal update, the parameters of `norm(x, y)`, percentiles, means, sampled expressions, geometric
  means, growth rates, `extremize` and lognormal parameters are written once more with a rounding after
  every operation. The rounding is any correct rounding to nearest with p binary digits and an unbounded
  exponent (so no overflow or underflow); p = 53 for doubles. `Model/DoubleWeights`, `Model/DoubleNorm`, `Model/DoubleSample` (C171–C173, C176), `Model/DoubleUpdate` (C175), `Model/DoubleBayes` (C177), `Model/DoubleOdds` (C178), `Model/DoubleDraws` (C179), `Model/DoubleKelly` (C180), `Model/DoublePercentiles` (C181), `Model/DoubleMean` (C182) and `Model/DoubleFrequency` (C183) have the bounded exponents of doubles with
  subnormal numbers and infinities, and `Lemmas/Double` shows where both agree. `sum` is the plain sum of Python 3.11, except in
  `Model/CompensatedSum` (C174), which has the compensated sum that CPython uses for floats from 3.12 on.

## Not expressible in this model

Rounding outside `Model/Rounded` (see above), overflow, infinities and `nan` in arithmetic outside `Model/Special` and `Model/Double*` (C133, C171–C173, C175–C183), integer overflow outside `Model/MachineSample`, `Model/WideSample` and `Model/Quotient` (C141, C142, C168), the statistical quality of numpy's bit generator, performance, terminal output beyond C136 and C140,
plotting, pandas objects beyond being converted to lists.

## Testing the theorems against wrong programs

`tools/mutate.py` applies an edit to the model in a scratch copy, replaces every proof that no longer goes
through by `sorry` until everything builds again, and then lists the property theorems that depend on
`sorryAx`. The edit counts as caught only if a theorem of the very property it breaks is among them.
`seeded/LOG.jsonl` has one line for each attempt.

## Trusted base

* Lean's kernel and the axioms `propext`, `Classical.choice`, `Quot.sound` (no others; see `AXIOMS.txt` for
  the list of every theorem). No `sorry`, `native_decide`, `bv_decide`, `implemented_by`, `unsafe`.
* Mathlib's definitions of the real numbers, measures, Gaussian and beta laws, matrices.
* The faithfulness of the model to the Python source (cited line ranges) and to the documented behaviour of
  the numpy/scipy/Python primitives it calls.
