#!/usr/bin/env python3
"""Writes /verif/properties.jsonl (one JSON object per line)."""
import json
P = []
def p(id, title, statement, quantifier, why, anchors):
    P.append(dict(id=id, title=title, statement=statement, quantifier=quantifier,
                  why_tests_cant=why, anchors=anchors))
U, D, S, B, C, DI, R = ["squigglepy/%s.py" % x for x in
    ("utils", "distributions", "samplers", "bayes", "correlation", "dice", "rng")]

p("C01", "Weights are accepted exactly when documented, and what is kept is exactly the positively weighted components",
  "mixture(dists, weights=ws) / geomean(a, weights=ws) with one weight per value succeeds iff the weights are all non-negative and their sum lies strictly between 0.99 and 1.01; on success the retained (weight, value) pairs are exactly the input pairs with non-zero weight, in input order and with unchanged weights. Every other call raises ValueError.",
  "every list of values and every list of weights of any length (any signs, any sum)",
  "acceptance depends on length, on sum and on sign of every weight; tests try a handful of lists.",
  [U+":_process_weights_values", D+":MixtureDistribution", U+":geomean"])
p("C02", "relative_weights are normalised to sum to one and only their ratios matter",
  "mixture(dists, relative_weights=rs) with non-negative rs of positive sum and the same length always succeeds, the kept weights sum to exactly 1, stay in the ratio of the given ones, and multiplying all rs by the same positive constant changes nothing. rs summing to 0 raises.",
  "every list of non-negative relative weights, every positive scale factor",
  "an algebraic law over all lists", [U+":normalize", U+":_process_weights_values"])
p("C03", "An omitted last weight is inferred as the remainder",
  "When exactly one weight is missing and the given ones are non-negative with sum below 1, the call succeeds and the last value gets 1 minus that sum; the resulting weights sum to exactly 1. bayes.average(p, e, weights=w) for 0<=w<1 therefore puts w on p and 1-w on e.",
  "every list of values with one fewer weight", "all lists, all sums", [U+":_process_weights_values", B+":average"])
p("C04", "Without weights every value is equally likely",
  "mixture(dists)/discrete(items) without weights keeps every value, in order, each with weight exactly 1/len.",
  "every non-empty list", "all lengths", [U+":_process_weights_values"])
p("C05", "A mixture picks component i with probability exactly its weight",
  "For accepted weights that sum to 1, the set of uniform draws u in [0,1) for which the mixture sampler returns a sample of component i has Lebesgue measure exactly w_i, for both the <=100 samples and the >100 samples code path.",
  "every list of positive weights summing to 1, every component index, all u in [0,1)",
  "an exact probability over a continuum; tests only check empirical frequencies of one mixture",
  [S+":_mixture_sample_for_small_n", S+":_mixture_sample_for_large_n", S+":mixture_sample"])
p("C06", "The two mixture sampling strategies pick the same component and never fail",
  "For every accepted mixture and every uniform draw, the strategy used for n<=100 and the one used for n>100 choose the same component, and neither raises.",
  "every accepted weight list, every u in [0,1)",
  "the difference only shows for weights whose sum is slightly below 1 and rare draws; FALSE of the code (IndexError for n>100 when the accepted weights sum to <1), proved as a negation plus a partial theorem",
  [S+":_mixture_sample_for_small_n", S+":_mixture_sample_for_large_n"])
p("C07", "Zero-weight components are never sampled",
  "A component given weight 0 is never evaluated by sampling the mixture, for any draw.",
  "every mixture, every draw sequence", "a 'never' claim", [U+":_process_weights_values", S+":mixture_sample"])
p("C08", "discrete() on a long list is the empirical distribution of the list",
  "discrete(items) for an unweighted list returns value v with probability (number of occurrences of v)/(length), whether or not the list is compressed by counting (>=100 items with repeats).",
  "every non-empty list of hashable items, of any length and multiplicity",
  "the compression path only triggers at >=100 items with repeats; all multiplicity patterns",
  [U+":_process_discrete_weights_values", S+":discrete_sample"])
p("C09", "zero_inflated(p, d) returns the zero component with probability exactly p",
  "For every float p in [0,1] zero_inflated(p, d) succeeds and picks the constant 0 on a set of draws of measure p and d otherwise (always 0 for p=1, always d for p=0); p outside [0,1] is rejected with ValueError.",
  "every p, every distribution d", "a continuum of p including both edges", [D+":zero_inflated"])
p("C10", "Calls never modify the caller's weight list",
  "Passing a Python list as weights leaves that list unchanged.",
  "every call and every list", "aliasing effect only visible on the caller's object; FALSE of the code when the last weight is omitted (append on the caller's list), proved as negation plus partial theorem",
  [U+":_process_weights_values"])

p("C11", "sample(d, n) returns exactly n samples",
  "For every distribution expression d and n>=1, a successful sample(d, n=n) yields n values (a scalar for n=1, an array of length n otherwise).",
  "every distribution tree of any depth, every n, every RNG behaviour",
  "quantifies over all trees; FALSE for log_tdist() without an interval, for tdist(x,x)/log_tdist(x,x), for a repeated sample of a correlated variable with another n, and tdist() returns a length-1 array for n=1; proved for all other trees, negations for these",
  [S+":sample", S+":t_sample", S+":log_t_sample"])
p("C12", "Clipping bounds hold for every returned sample",
  "If lclip/rclip are given to sample() and/or to the distribution, every returned value v satisfies max(all lclips) <= v <= min(all rclips) (when that interval is non-empty) and values already inside are returned unchanged, i.e. the result is the elementwise clamp of the unclipped draw.",
  "every distribution, bounds, n and draw", "for all draws", [S+":sample"])
p("C13", "Arithmetic on distributions is elementwise on samples",
  "Sampling an expression built with + - * / // ** unary - and comparisons > >= < <= yields exactly the elementwise result of sampling the left operand, then the right operand, from the same generator, for reflected operators (2 - d) too.",
  "every expression tree of any depth, every n and RNG state", "all trees", [D+":OperableDistribution", S+":sample"])
p("C14", "Comparison operators compute the comparison they are written as",
  "sampling (a == b) gives a-sample == b-sample and (a != b) its negation, like > >= < <=.",
  "every pair of operands", "FALSE of the code: both == and != are computed as <=; proved as negation; the four other comparisons proved",
  [D+":OperableDistribution.__eq__", D+":OperableDistribution.__ne__"])
p("C15", "Piping is the same as calling",
  "d >> lclip(v), d >> rclip(v), d >> clip(l, r), d >> dist_fn(f), d >> dist_fn([f, g]), d >> dist_max(e), d >> dist_min(e) build the same distribution as lclip(d, v), rclip(d, v), clip(d, l, r), dist_fn(d, f), dist_fn(dist_fn(d, f), g), dist_max(d, e), dist_min(d, e).",
  "every distribution and parameters, function lists of any length", "all inputs", [D+":dist_fn", D+":lclip", D+":rclip", D+":clip", D+":dist_max"])
p("C16", "lclip/rclip/clip of a distribution clamp each sample",
  "sampling lclip(d, v), rclip(d, v), clip(d, l, r) yields the elementwise max(.,v), min(.,v), clamp of the samples of d.",
  "every distribution, bound and draw",
  "depends on the type of the FIRST draw: FALSE of the code for mixed int/float (np.vectorize takes the output dtype from the first element, so an int bound hit by the first float sample truncates all samples, and a float bound on integer samples is truncated below the bound); negation and partial theorem",
  [D+":_lclip", D+":_rclip", D+":lclip", D+":clip"])
p("C17", "Model functions are evaluated once per sample",
  "sample(f, n) of a Python function calls f exactly n times, samples each returned distribution exactly once, and returns n values; plain return values are returned as they are.",
  "every function, n and RNG", "all functions and n", [S+":sample"])
p("C18", "Samples stay in the support of the distribution",
  "uniform(x,y) samples lie in [x,y]; pert(l,m,r) and triangular in [l,r]; bernoulli in {0,1}; die(s) in 1..s; coin in {heads,tails}; pareto >= 1; geometric >= 1; invlognorm > 0; binomial(n,p) in 0..n; mixture/discrete samples are samples of one of the positively weighted components.",
  "every parameter and draw", "for all draws", [S+":sample"])
p("C19", "Same seed, same program, same samples",
  "After set_seed(s) the results of any sequence of sampling calls are a function of s and the calls only.",
  "every call sequence and every earlier history", "depends on all hidden state (generator, caches, correlated leftovers); FALSE when an earlier history left correlated samples or memcache entries behind; negation plus partial theorem",
  [R+":set_seed", S+":sample"])
p("C20", "In-memory sample cache is stable",
  "After a call sample(d, memcache=True) returned v, every later sample(d, memcache=True) without reload_cache returns the same samples, whatever calls happen in between, until a call with reload_cache=True for the same key.",
  "every history of calls", "all histories", [S+":sample"])
p("C21", "The sample cache never answers with samples of another distribution",
  "sample(d, memcache=True) only returns samples drawn from d.",
  "every history of calls", "FALSE of the code: the cache key is str(dist), which does not parenthesise operators and rounds parameters and ignores mixture clips; negation plus partial theorem when keys are distinct",
  [S+":sample", D+":ComplexDistribution.__str__", D+":NormalDistribution.__str__", D+":MixtureDistribution.__str__"])
p("C22", "A cached call returns the requested number of samples",
  "sample(d, n=n, memcache=True) returns n samples on a cache hit.",
  "every history and n", "FALSE of the code (n is not part of the key and never checked); negation plus partial theorem",
  [S+":sample"])
p("C23", "Cache files round-trip and have the documented priority",
  "What dump_cache_file writes is what load_cache_file returns later; the file wins over memory exactly when there is no memory entry or cache_file_primary; reload_cache ignores both; a call without memcache/load_cache_file never reads a cache.",
  "every history over memory cache and file system", "all histories; the documented fallback to the file is FALSE when a memory entry exists and memcache=False",
  [S+":sample"])
p("C24", "Work is split over cores without loss",
  "splitting n over c>=1 cores gives c non-negative parts that sum to n, all equal except the last, which exceeds the others by less than c.",
  "every n and c", "all n and c", [U+":_core_cuts"])
p("C25", "sample(d, n, cores=c) returns the same kind of result as cores=1 and cleans up",
  "With c>1 cores and n>=1 the result consists of n samples, the concatenation of the per-core batches in core order, each clipped as requested, and no temporary file remains.",
  "every n, c, and every completion order of the workers",
  "all schedules; FALSE for n<c (workers fail silently and a missing or stale temp file is read); negation plus partial",
  [S+":sample"])
p("C26", "Cores produce different randomness",
  "With cores=c the batches of different cores are separate parts of the random stream (no batch repeats another).",
  "every n, c", "runtime fork semantics; FALSE under fork: each worker inherits the same generator state; negation under a stated fork model",
  [S+":sample", R+":_squigglepy_internal_rng"])
p("C27", "Two runs in the same directory do not interfere",
  "Concurrent or crashed multicore runs of sample/bayesnet in the same working directory never change another run's result.",
  "every interleaving and crash point", "schedules and crash points; FALSE (fixed temp file names, bayesnet reuses a leftover file); negation plus partial for a clean directory and exclusive use",
  [S+":sample", B+":bayesnet"])

p("C28", "A die that passes validation always has a non-exploding face",
  "If die(sides, explode_on) is accepted, some face 1..sides does not explode, all explode values are faces, and sides>=2; so a roll ends as soon as such a face comes up.",
  "every sides and explode list of any length", "pigeonhole over all lists", [DI+":Die", S+":die_sample"])
p("C29", "An exploding roll is the sum of the exploding faces and one final non-exploding face",
  "Every result of die_sample is r1+...+rk with r1..r(k-1) exploding and rk a non-exploding face, using exactly k draws; so die(s, explode_on=s) never returns a multiple of s and a plain die uses one draw in 1..s.",
  "every die and every stream of rolls", "unbounded number of explosions", [S+":die_sample"])

p("C30", "Inducing correlation preserves each marginal",
  "correlate() only reorders samples: each variable's returned samples are a permutation of its independent draws.",
  "every sample matrix of any size accepted by the diversity check",
  "the repository's own check compares an array with itself (in-place modification); FALSE of the code when the new scores have ties (values are lost); proved when new ranks have no ties, negation otherwise",
  [C+":CorrelationGroup._sort_data_according_to_rank", C+":CorrelationGroup.induce_correlation"])
p("C31", "The reordered samples are ordered like the target scores",
  "After inducing correlation, sample i of a variable is <= sample j exactly as target score i is <= target score j (for distinct data and scores), i.e. the ranks are the target ranks.",
  "every column of any length", "all sizes", [C+":CorrelationGroup._sort_data_according_to_rank"])
p("C32", "Correlated variables sampled one after the other come from one joint draw",
  "Starting fresh, sampling every member of a correlated group once, in any order, returns the columns of a single joint draw; in any history the value returned is the member's column of the most recent joint draw of its group, no column of a joint draw is ever returned twice.",
  "every group size, every order, every call history", "all histories", [S+":sample_correlated_group", S+":sample"])
p("C33", "Repeated sampling of a correlated variable honours n",
  "sample(b, n) of a correlated variable returns n samples.",
  "every history", "FALSE of the code: left-over samples of a different n are returned; negation plus partial",
  [S+":sample"])
p("C34", "correlate() leaves its inputs alone and links the copies",
  "correlate(vars, m) returns as many variables as given, in the same order, all linked to one shared group; the originals keep no group; fewer than two variables, already correlated variables and malformed matrices (size, diagonal, range, asymmetry, not positive semidefinite) are rejected.",
  "every tuple and matrix", "all tuples", [C+":correlate", C+":CorrelationGroup.__post_init__"])
p("C35", "A scalar correlation is accepted exactly when feasible",
  "correlate(vars, c) for k variables and a number c is accepted iff -1 < c < 1 and c >= -1/(k-1).",
  "every k>=2 and real c", "matrix positive semidefiniteness in every dimension", [C+":correlate", C+":CorrelationGroup.__post_init__"])
p("C36", "A successful correlated sample meets the tolerance",
  "If tolerance is not None, every successful joint sample has empirical rank correlations within tolerance of the requested ones, otherwise RuntimeError is raised.",
  "every sample matrix, target and tolerance", "FALSE of the code for tolerance=0 and for the identity matrix (check skipped); negation plus partial",
  [C+":CorrelationGroup.induce_correlation", C+":CorrelationGroup._check_empirical_correlation"])
p("C37", "contains_correlated is set exactly when a correlated variable occurs",
  "a composite distribution reports contains_correlated=True iff a correlated variable occurs somewhere in its expression tree.",
  "every expression tree of any depth", "all trees", [D+":CompositeDistribution._check_correlated"])

p("C38", "norm(x, y) is the normal distribution whose credible interval is [x, y]",
  "For x<y and 0<credibility<100, norm(x,y,credibility) has mean (x+y)/2 and P(x<=X<=y)=credibility/100, with equal tails.",
  "all reals x<y and credibilities in (0,100)", "a continuum; exact probability", [D+":NormalDistribution"])
p("C39", "lognorm(x, y) is the lognormal distribution whose credible interval is [x, y]",
  "For 0<x<y, P(x<=X<=y)=credibility/100 with equal tails for the sampled variable X=exp(N(norm_mean,norm_sd)).",
  "all 0<x<y, credibility in (0,100)", "a continuum", [D+":LognormalDistribution", S+":lognormal_sample"])
p("C40", "lognorm parameters in linear and log space agree",
  "lognorm(lognorm_mean=m, lognorm_sd=s) yields norm parameters whose lognormal has mean m and sd s, and lognorm(norm_mean=mu, norm_sd=sigma) reports the true mean and sd; converting back and forth is the identity.",
  "all m>0, s>0 (mu, sigma>0)", "a continuum", [D+":LognormalDistribution"])
p("C41", "invlognorm(x, y) has credible interval [x, y]",
  "For 0<x<y the sampled variable 1/exp(N(norm_mean,norm_sd)) lies in [x,y] with probability credibility/100.",
  "all 0<x<y, credibility in (0,100)", "a continuum", [D+":InverseLognormalDistribution", S+":inverse_lognormal_sample"])
p("C42", "invlognorm(lognorm_mean=m, lognorm_sd=s) has mean m",
  "The variable sampled for invlognorm(lognorm_mean=m, lognorm_sd=s) has expectation m, and the reported lognorm_mean is its expectation.",
  "all m,s>0", "FALSE of the code (sign error: the actual mean is m+s^2/m); negation plus exact actual value",
  [D+":InverseLognormalDistribution"])
p("C43", "to(x, y) never fails on an ordered pair and picks the right family",
  "to(x,y) is lognorm(x,y) for x>0 and norm(x,y) otherwise; for x<=y construction succeeds; for x>y ValueError.",
  "all reals", "all reals", [D+":to"])
p("C44", "Constructors never yield a half-defined normal/lognormal",
  "If norm(...)/lognorm(...)/invlognorm(...) returns, mean and sd (norm_mean, norm_sd, lognorm_mean, lognorm_sd) are all numbers.",
  "every combination of present/absent keyword arguments", "2^6 presence patterns times all values; FALSE for norm(x=..,y=..,mean=..) (sd stays None); negation and exact characterisation",
  [D+":NormalDistribution", D+":LognormalDistribution", D+":InverseLognormalDistribution"])
p("C45", "pert(l,m,r,lam) is a beta scaled to [l,r] with mean (l+lam*m+r)/(lam+2)",
  "the beta parameters are >=1, and the mean of the sampled variable is (l+lam*m+r)/(lam+2); invalid orderings are rejected.",
  "all l<=m<=r, l<r, lam>=0", "a continuum", [S+":pert_sample", D+":PERTDistribution"])

p("C46", "bayesnet returns the conditional relative frequency",
  "bayesnet(f, n, find, conditional_on) equals #(events satisfying condition and find)/#(events satisfying condition), is in [0,1], and raises ValueError iff no event satisfies the condition.",
  "every event list, predicate pair", "all event lists", [B+":bayesnet"])
p("C47", "bayesnet never answers from fewer than n simulated events",
  "In every history of calls (any mix of memcache, files, reload, cores), a successful bayesnet(..., n=n) uses at least n simulated events; if a cache holds fewer it raises ValueError.",
  "every history of calls", "invariant over all histories of memory and file caches", [B+":bayesnet"])
p("C48", "bayesnet memory cache is stable, reloadable and can be bypassed",
  "With memcache=True repeated calls for the same event function use the same events until reload_cache=True; memcache=False neither reads nor writes the memory cache.",
  "every history", "all histories", [B+":bayesnet"])
p("C49", "bayesnet cache files round-trip",
  "events dumped with dump_cache_file are the events used by a later call with load_cache_file (when no memory entry exists or cache_file_primary), and any request not exceeding the recorded n is served.",
  "every history", "all histories; a request between the recorded n and the number of stored events is refused (recorded n can shrink) - proved", [B+":bayesnet"])
p("C50", "bayesnet results are independent of what the caller does with earlier results",
  "Mutating a returned list does not change later answers.",
  "every history", "aliasing; FALSE of the code when neither find, conditional_on nor reduce_fn is given (the cached list itself is returned); negation plus partial", [B+":bayesnet"])
p("C51", "bayesnet with several cores collects exactly n events",
  "With cores=c>1 in a clean directory bayesnet collects n events, in core order, and removes its temp files.",
  "every n, c", "all n, c; FALSE if a leftover temp file exists (see C27)", [B+":bayesnet"])
p("C52", "Updating a normal prior is precision-weighted averaging and order independent",
  "update(norm, norm, w): posterior precision = prior precision + w*evidence precision, the mean is the precision-weighted mean, lies between the two means; sd does not grow; w=0 returns the prior; updating with e1 then e2 equals e2 then e1.",
  "all means, positive sds, weights >= 0, sequences of evidence of any length", "order independence for all sequences", [B+":update"])
p("C53", "Updating lognormal, beta and gamma priors",
  "lognormal updates are normal updates in log space; beta updates add parameters (weight ignored) ; gamma updates add shapes and average rates weighted by shape; all are order independent in the evidence; mixed or unsupported types raise ValueError.",
  "all parameters, all sequences of evidence", "all sequences", [B+":update"])
p("C54", "simple_bayes is Bayes' rule",
  "For likelihoods and prior in [0,1] with positive denominator the result is in [0,1], posterior odds = likelihood ratio * prior odds, it is monotone in the prior, and updating sequentially equals updating with the product of likelihoods.",
  "all inputs", "a continuum", [B+":simple_bayes"])

p("C55", "p_to_odds and odds_to_p are mutually inverse",
  "on every p in (0,1) and every odds>0, elementwise on lists, with NA passed through; out-of-range input raises.",
  "all p, odds, lists", "a continuum, all lists", [U+":p_to_odds", U+":odds_to_p"])
p("C56", "geomean lies between min and max and is symmetric and homogeneous",
  "for positive values and non-negative weights: min<=geomean<=max, permuting (value, weight) pairs does not matter, scaling values by c>0 scales the result by c, constant lists give the constant, NA values are dropped when unweighted.",
  "all lists of positive reals and weights", "a continuum, all lists", [U+":geomean"])
p("C57", "geomean_odds works for every non-empty list of probabilities",
  "geomean_odds(ps) is odds_to_p(geomean(odds of ps)) and lies between min and max of ps.",
  "all lists of probabilities in (0,1)", "FALSE of the code for one-element lists (and weights leaving one element): raises ValueError; negation plus partial", [U+":geomean_odds"])
p("C58", "laplace returns a probability, monotone in the evidence",
  "laplace(s,n) in (0,1), increasing in s and decreasing in n; the time-invariant version is in (0,1), increases with time_remaining and s, decreases with time_passed, depends only on the ratio time_remaining/time_passed; each parameter combination has the documented outcome.",
  "all s<=n, positive times", "a continuum and all argument combinations", [U+":laplace"])
p("C59", "growth rate and doubling time conversions are inverse",
  "doubling_time_to_growth_rate(growth_rate_to_doubling_time(g)) = g for g>0 and vice versa, and after the doubling time the quantity has exactly doubled.",
  "all positive reals", "a continuum", [U+":growth_rate_to_doubling_time", U+":doubling_time_to_growth_rate"])
p("C60", "kelly recommends the growth-optimal stake",
  "For my_price>=market_price the returned fraction is (adj-market)/(1-market), lies in [0,1), is 0 iff adj=market, shrinks linearly with deference, and maximises expected log wealth.",
  "all prices in (0,1), deference in [0,1]", "a continuum; optimality against every other stake", [U+":kelly"])
p("C61", "kelly with error=False behaves symmetrically and never stakes more than the bankroll",
  "With error=False and my_price<market_price the fraction equals the one of the mirrored bet (1-my, 1-market) and is at most 1.",
  "all prices in (0,1)", "FALSE of the code (8.9 times the bankroll at my=0.01, market=0.9); negation plus exact condition", [U+":kelly"])
p("C62", "extremize moves predictions away from 1/2",
  "for e>=1 extremize(p,e) stays in (0,1), is <=p for p<=1/2 and >=p for p>1/2, is monotone in p, identity for e=1, symmetric (extremize(1-p)=1-extremize(p)) except at p=1/2, multiplicative in e.",
  "all p in (0,1), e", "a continuum", [U+":extremize"])
p("C63", "Percentiles are bounded, monotone and labelled right",
  "get_percentiles(data, ps)[p] is the linear-interpolation percentile: between min and max, non-decreasing in p, 0 -> min, 100 -> max; reverse swaps the labels end to end; one percentile gives a number.",
  "all data sets and percentile lists", "all lists", [U+":get_percentiles"])
p("C64", "Weighted percentiles are bounded and monotone",
  "with positive weights the weighted percentile lies between min and max of the data and is non-decreasing in the percentile, and is invariant under scaling the weights and under permuting the data with its weights.",
  "all data and positive weights", "all lists", [U+":_weighted_percentile", U+":get_percentiles"])
p("C65", "Credible intervals bracket the median",
  "get_median_and_ci: ci_low <= median <= ci_high; get_mean_and_ci: ci_low <= ci_high and min <= mean <= max; with weights the reported mean is the weighted mean.",
  "all data, credibility in [0,100]", "all data; the weighted-mean clause is FALSE of the code (weights ignored); negation plus partial", [U+":get_mean_and_ci", U+":get_median_and_ci"])
p("C66", "get_log_percentiles returns a value for every input",
  "the function returns the formatted percentile(s) for one or several percentiles.",
  "every percentile list, both display modes", "FALSE of the code: one percentile with display=True returns None; negation plus partial", [U+":get_log_percentiles"])
p("C67", "Custom buckets partition the data",
  "bucket_percentages with contiguous custom_bins covering the data: counts sum to the number of data points (percentages to 100), each point is counted in exactly the bucket whose label [low, high) contains it.",
  "all data and bin lists", "all data and bin lists; labels are wrong for non-contiguous bins and histogram mode counts the last edge although labelled ')': negations", [U+":bucket_percentages"])
p("C68", "event(p) happens with probability p",
  "event/event_occurs/event_happens/bernoulli(p) is true on a set of draws of measure exactly p; always true for p=1, never for p=0.",
  "all p in [0,1], all draws", "exact probability", [U+":event_occurs", S+":bernoulli_sample"])
p("C69", "Scalars and arrays unwrap consistently",
  "p_to_odds etc. applied to one number give one number, to a list of k>=2 numbers give k numbers in order; every sampler returns a scalar for one sample.",
  "all inputs", "all lengths", [U+":_simplify", U+":_enlist"])
p("C70", "sharpe_ratio is invariant under rescaling",
  "scaling returns and risk-free rate by c>0 leaves the ratio unchanged; shifting both leaves it unchanged; c<0 flips the sign.",
  "all return lists with non-zero deviation", "a continuum, all lists", [U+":sharpe_ratio"])
p("C71", "is_continuous_dist recognises exactly the continuous expressions",
  "an expression built only from continuous distributions by arithmetic, negation and mixtures is reported continuous.",
  "every tree", "FALSE of the code for unary operations and numeric operands; negation plus exact characterisation", [U+":is_continuous_dist"])
p("C72", "Invalid inputs are rejected at construction",
  "uniform needs x<y; binomial 0<p<1; bernoulli/geometric 0<=p<=1; chisquare df>0; exponential 0<scale<1e20; triangular/pert ordered; tdist/log_tdist both bounds or none and ordered; sample needs n>=1 and a sampleable object.",
  "all parameter values", "iff over a continuum", [D, S+":sample", U+":is_sampleable"])

p("C73", "The target scores have exactly the requested correlation",
  "When the independent draws of every variable are distinct and the linear algebra (Cholesky factors of the sample correlation and of the requested matrix) is exact, the scores whose ranks the samples are given have Pearson correlation exactly equal to the requested matrix.",
  "every number of variables, sample size, data matrix and requested matrix", "all sizes and all real matrices", ["squigglepy/correlation.py:CorrelationGroup.induce_correlation"])

p("C74", "Expressions of correlated variables keep their partners when correlated again",
  "If x and y are correlated and z is an expression of x, the variable correlate((z, w), m) returns for z is still an expression of x, so it is sampled jointly with y.",
  "every object graph", "FALSE of the code: correlate deep-copies, the returned variable is built from a clone of x that belongs to a cloned group; aliasing between object graphs is invisible to value-level tests", ["squigglepy/correlation.py:correlate"])

p("C75", "Whatever a constructor returns can be sampled",
  "If a distribution constructor returns without raising, sampling n>=1 values from the result returns without raising.",
  "every constructor call, every n, every generator state", "FALSE of the code: several constructors (beta, binomial, poisson, gamma, pareto, geometric, tdist) accept parameters the generator refuses; negation for every refusing generator, plus exact sufficient conditions", [D, S])
p("C76", "Bounds passed to a constructor hold for every sample",
  "Every sample of a distribution constructed with lclip/rclip lies within them.",
  "every constructor that takes bounds, all samples", "FALSE of the code for triangular, which drops its bounds; proved for all others", [D+":triangular", D+":pert", D+":tdist"])

p("C77", "A failed dump keeps the previous cache file",
  "After bayesnet(..., dump_cache_file=f) raises or crashes while writing, f still holds the previous valid cache.",
  "every history, every crash point", "FALSE of the code: the file is emptied before the events are encoded; negation for every function whose events cannot be encoded; partial: a file is unchanged, completely new, or truncated together with TypeError", [B+":bayesnet"])
p("C78", "Events used for an event function were produced by it",
  "Every event bayesnet(f, ...) uses was produced by a run of f.",
  "every history of calls for any event functions", "all histories; FALSE with cache files, which are not tied to an event function; proved without loads", [B+":bayesnet"])

p("C79", "Updating moves the mean towards the evidence, not beyond it",
  "The mean of update(prior, evidence, w) lies between the mean of the prior and the mean of the evidence; in particular evidence identical to the prior leaves the mean as it is.",
  "all parameters of all four supported families, all weights >= 0", "a continuum of parameters; FALSE of the code for gamma (identical evidence doubles the mean) and lognormal (identical evidence lowers it); proved for normal and beta", [B+":update"])
p("C80", "average is the mixture with the given weights",
  "bayes.average(prior, evidence) mixes half and half; one weight w in [0,1) gives w to the prior and 1-w to the evidence; two weights are used as given; relative_weights are normalised.",
  "all distributions and weights", "all weights; FALSE of the code for relative_weights while weights has its default: always ValueError", [B+":average"])

p("C81", "Every distribution draws the law it is named after",
  "sample(d, n) of a basic distribution is n numbers of the numpy law with the documented parameters, transformed one by one as documented (reciprocal for invlognorm, +1 for pareto, rescaled beta for pert, heads/tails for a coin); a die sample is the sum of one maximal exploding run of fair rolls.",
  "every parameter, every n, every generator", "a wrong parameter or an off-by-one in a range changes the law without changing the type, the range or (much) the mean", [S, S+":sample", "squigglepy/dice.py:Die"])
p("C82", "tdist(x, y) moves and stretches with its interval",
  "Moving the interval of tdist by a moves each sample by a, stretching it by k>0 stretches each sample by k.",
  "all intervals, degrees of freedom and generator states", "FALSE of the code for moves: the centre of the interval is divided by the random scale as well, so tdist(99,101) is far wider than 100+tdist(-1,1); proved for stretching", [S+":t_sample", S+":log_t_sample"])

p("C83", "Rounding, exp and log of a distribution act on each sample",
  "sample(dist_floor(d), n), dist_ceil, dist_round, dist_exp and dist_log give the function of each of the n samples of d, for every n.",
  "every distribution, every n, every number of digits and base, every generator", "FALSE of the code for dist_round, dist_exp and dist_log with n >= 2 (always an exception: scalar-only functions, or the digits sampled into an array); proved for floor and ceil and, one sample at a time, for the others", [D+":dist_round", D+":dist_floor", D+":dist_ceil", D+":dist_exp", D+":dist_log"])
p("C84", "Growth rates and doubling times of distributions",
  "growth_rate_to_doubling_time(d) and doubling_time_to_growth_rate(d) of a distribution give, for each sample of d, the conversion of that number.",
  "every distribution, every n", "FALSE of the code for n >= 2, where sampling the result always fails; proved for one sample at a time", [U+":growth_rate_to_doubling_time", U+":doubling_time_to_growth_rate"])
p("C85", 'Changing a returned array does not change later samples',
  'If the caller changes an array returned by sample(), every later sample() call returns what it would have returned otherwise.',
  'every history of calls (caches, files, bounds, cores) and in-place assignments by the caller', 'needs all interleavings of calls and assignments; FALSE of the code with memcache=True: the cache keeps and hands out the very array it returned; proved for arrays returned with memcache=False', [S+":sample"])
p("C86", 'Samples are independent draws from the distribution they describe',
  'Every distribution expression built from numbers, basic distributions, t intervals, dice (also exploding ones), discrete distributions, mixtures, bounds, arithmetic (also // and **), rounding and element-wise functions stands for a probability law. sample(d, n) succeeds with probability 1, each of its n numbers has exactly that law, the n numbers are independent, and they are independent of everything sampled later.',
  'every expression of any depth, every n >= 1, every source of independent random inputs, every later call', 'a test sees finitely many samples of finitely many expressions; law and independence are statements about all outcomes', [S+":sample", S+":mixture_sample", S+":discrete_sample", S+":normal_sample", D+":ComplexDistribution"])
p("C87", 'Estimates from samples converge to the true value',
  'The mean of sample(d, n) differs from the mean of d by eps or more with probability at most variance/(n eps^2), and with a probability that tends to 0 as n grows whenever d has a mean at all; the fraction of the samples satisfying a condition differs from its probability by eps or more with probability at most 2 exp(-2 n eps^2).',
  'every expression d covered by C86, every n >= 1, every eps > 0, every measurable condition', 'tests fix a seed and a tolerance; the bound holds for every n and eps', [S+":sample"])
p("C88", 'Intervals and sums of normal distributions mean what they say when sampled',
  'Of n samples of norm(x, y, credibility) or lognorm(x, y, credibility), a fraction within eps of the credibility lies in [x, y] except with probability at most 2 exp(-2 n eps^2). The samples of norm(mean=a, sd=s) + norm(mean=b, sd=t) are independent normal with mean a+b and variance s^2+t^2. x - x for one object x samples both occurrences independently.',
  'all x < y, credibilities, means and standard deviations, n, eps', 'real-valued parameters and all outcomes', [D+":NormalDistribution", D+":LognormalDistribution", D+":norm", D+":lognorm", S+":sample"])
p("C89", 'bayesnet estimates conditional probabilities',
  "For an event function that calls event(p), samples distributions, computes and branches, and with no cached events: the n events bayesnet uses are independent with the law of the function's value; bayesnet(event_fn, n, find=f, conditional_on=c) is within delta of the conditional probability of f given c except with probability at most 4 exp(-2 n (delta P(c) / (2 + delta))^2). For the two-step model h = event(prior), e = event(likelihood_h if h else likelihood_not_h), that conditional probability is simple_bayes(likelihood_h, likelihood_not_h, prior).",
  'every event function of that form, every measurable find and conditional_on with positive probability, every n >= 1, delta > 0, starting state; ideal generator', 'a test runs one seed and compares with a tolerance; it cannot bound the probability of a deviation for all models', [B+":bayesnet", B+":simple_bayes", U+":event_occurs", U+":event"])
p("C90", 'Percentiles and credible intervals of samples estimate those of the law',
  'get_percentiles(sample(d, n), p) lies between two points a and b, where a has at most p/100 - 1/n - eps of the law of d below it and b at most 1 - p/100 - 1/n - eps above it, except with probability at most 4 exp(-2 n eps^2). So percentiles of samples converge to the quantiles of the law (where these are unique), get_mean_and_ci and get_median_and_ci of samples converge to the mean, median and central interval of the law, and sampling norm(x, y, credibility=c) or lognorm(x, y, credibility=c) and asking for the credible interval at c gives back x and y in the limit.',
  'every distribution expression with a law, every n, percentile, credibility and tolerance; all streams of an ideal generator', 'a statement about probabilities for all distributions and sample sizes; a test sees a few seeds with loose tolerances', [U+":get_percentiles", U+":get_mean_and_ci", U+":get_median_and_ci", S+":sample", D+":norm", D+":lognorm"])
p("C91", 'Samples of a function have the law of what it computes',
  'sample(f, n), for a function f that draws from distributions, branches on the draws and returns a number, almost surely succeeds; its n numbers are independent and each has the law of the value that f computes. If f returns one of finitely many distributions, each number has the mixture of their laws, weighted with the probability that f returns each. The fraction of the n numbers with a given property is within eps of its probability except with probability at most 2 exp(-2 n eps^2).',
  'every function built from draws, branches and measurable computations, every n and every tolerance; all streams of an ideal generator', 'a statement about probabilities for all functions and sample sizes; a test sees a few seeds of a few functions', [S+":sample"])
p("C92", 'All the numbers of a session are independent',
  'A program calls sample(d_1, n_1), ..., sample(d_k, n_k) one after the other, where each d_i is a distribution or a function as in C91. Almost surely all calls succeed, every number of call i has the law of d_i, and all numbers of all calls together are independent.',
  'every sequence of calls of any length, every distribution expression and function with a law, all sample sizes; all streams of an ideal generator', 'independence across a whole history of calls, of any length, is not observable in finitely many runs', [S+":sample"])
p("C93", 'Correlated samples are refused exactly when they repeat too much',
  'Sampling a correlated variable raises ValueError when the draws of some variable of the group have fewer than 70 per cent, or fewer than the required number (100), different values, and only then; in particular every sample of fewer than the required number fails, whatever the history of calls, and so does any variable with few possible values.',
  'every group, correlation matrix, data set and history of calls', 'the boundary, and whether a refused joint draw leaves something that a later call returns, cannot be covered by a few data sets', [C+":CorrelationGroup.has_sufficient_sample_diversity", C+":CorrelationGroup.induce_correlation", S+":sample"])
p("C94", 'The law of an exploding die',
  "If the generator's dice are fair then sampling any exploding die that the constructor accepts almost surely returns. Each result has the law 'roll once; if the face is one of the exploding faces, add an independent result of the same kind'. There is exactly one such law and its mean is (s+1)/2 divided by the share of faces that do not explode. The n results of one call are independent of each other and of every later random number. A roll is still unfinished after f extra rolls with probability (k/s)^(f+1).",
  'every number of sides, every accepted list of exploding faces, every sample size, every bound on the number of extra rolls, every probability space with fair dice', 'the loop has no bound and the law is the fixed point of an equation; a test sees finitely many seeds and a finite prefix of the loop', [DI+":die", DI+":Die", S+":die_sample", S+":sample"])
p("C95", 'Distributions as items of discrete() and as dictionary keys are kept apart',
  'discrete([...]) over any list of items (numbers, text, distributions) gives every item the share of the list it takes up, and mixture({d1: w1, d2: w2}) is the mixture of the distributions written in the dict. The code violates this for distributions that print the same: all distributions compare as equal and hash by their printed form, so from 100 items on they are counted as one, and a dict keeps only one of them.',
  'every list of items, every way items are identified, every dict of distributions', 'depends on which of infinitely many pairs of distributions print the same and on the length of the list; a test sees a few pairs', [U+":_process_discrete_weights_values", D+":OperableDistribution.__hash__", D+":OperableDistribution.__eq__", D+":BaseDistribution.__repr__", D+":discrete", D+":mixture"])
p("C96", 'A distribution does not change after it was built',
  "What the caller does with their lists and dicts after building a distribution from them has no effect on the distribution. The code violates this for die(explode_on=list) and discrete(list or dict), which keep the caller's object; a die can then be made to explode on every face, so that rolling it never ends. Mixtures, dice with a single exploding face and discrete on numpy arrays never change. Sampling never changes the caller's items.",
  "every constructor call that takes a list or dict, every later sequence of changes to any of the caller's lists and dicts", 'the number of later changes is unbounded, and non-termination cannot be observed by a test', [DI+":Die", D+":CategoricalDistribution", D+":MixtureDistribution", S+":die_sample", S+":discrete_sample"])
p("C97", 'Correlating variables does not distort their distributions',
  "Sampling a variable of a correlation group, when the variables are continuous and the random source is ideal: given that the call succeeds, its n samples are n independent draws from the variable's own distribution, and so are the samples that later calls on the other variables of the group return. In particular frequencies obey the same error bound as for an uncorrelated variable. Success has positive probability as soon as the group can correlate some table of distinct numbers.",
  'every group of continuous variables (each any expression with a law), every number of variables, every requested matrix and tolerance, every sample size, every measurable condition on the samples, every ideal random source', 'whether a data-dependent reordering together with a data-dependent refusal biases the samples is a statement about a whole joint distribution; a statistical test can neither establish nor exclude it', [C+":CorrelationGroup.induce_correlation", C+":CorrelationGroup._sort_data_according_to_rank", C+":correlate", S+":sample"])
p("C98", 'A cache file holds the old samples or the new ones, never anything else',
  'Whenever sample(d, n, dump_cache_file=f) crashes, and whoever else loads or dumps f at the same time, loading f afterwards gives the complete previous samples or the complete samples of one of the dumps. The code violates this: a crash between opening and the last number leaves a file that cannot be loaded, and calls that load it raise for ever after; two dumps at once can leave a mixture of both, and a reader can get zeros that nobody drew.',
  'every crash point, every interleaving of any number of processes, every list of samples and every previous content of the file', 'schedules and crash points cannot be enumerated by tests', [S+":sample"])
p("C99", 'kelly reports the yearly return of a bet',
  'kelly(..., resolve_date=d) reports as expected_arr the yearly return that amounts to the expected return of the bet at date d, for every date in the future. The code violates this: it counts whole days rounded down, so it raises ZeroDivisionError during the whole day before d, overstates the return at any other time except midnight, and reports a loss once d has begun.',
  'every time of the call, every date, all prices, deference, bankroll and current stake', 'the result depends on the time of the call; all real prices', [U+":kelly"])
p("C100", 'Comparing two distributions estimates a probability',
  'sample(a > b, n) (likewise >=, <, <=, ==, !=) yields n independent truth values, each true with the probability that a value of a and an independent value of b compare that way; the fraction of True is within e of that probability except with chance at most 2 exp(-2 n e^2).',
  'all distribution expressions a, b of C86, all comparison operators, all n >= 1, all e > 0, every state left by earlier calls', 'the claim is about the law of the results over all random streams, not about one seeded run', [D+":OperableDistribution.__gt__", D+":OperableDistribution.__eq__", S+":sample"])
p("C101", 'Bounds keep the distribution between them and put the rest on the bounds',
  'Under ideal randomness, for any distribution or expression with a law, sample(d, n, lclip=a, rclip=b) returns n independent numbers that never lie outside [a, b]; every set strictly between a and b has the chance it has without bounds; the number a appears exactly with the chance that d is at most a, and b with the chance that d is at least b. The same holds for one bound alone, and it makes no difference whether the bounds are given to the distribution (or mixture) or to the call. So bounds censor, they do not truncate and renormalise.',
  'every distribution or expression with a law and no bounds of its own, every pair of numeric bounds, every sample size n >= 1, every state of the correlation store', 'A test sees finitely many draws of one seed; this is about the probability of every event.', [S+":sample", D+":OperableDistribution", D+":MixtureDistribution"])
p("C102", 'Means and variances of expressions',
  'Under ideal randomness, with distributions a and b that have a mean: the mean of sample(a + b, n), a - b and a * b tends to the sum, difference and product of the means as n grows, and the mean of a mixture to the weighted mean of the means. With finite variances the variance of the samples tends to the variance of the law, and to Var a + Var b for a + b as well as for a - b, and to c**2 Var a for c * a. Both arguments are sampled independently, also when they are the same object: x + x has variance 2 Var x, while 2 * x has 4 Var x.',
  'all distributions and expressions with a law that has a mean (variance), all weights, all real factors, every tolerance; the limit is over all sample sizes', 'A statement about probabilities and about the limit of infinitely many sample sizes, for all expressions.', [S+":sample", D+":ComplexDistribution", D+":MixtureDistribution"])
p("C103", 'bayesnet with a numeric find estimates conditional expectations',
  'Under ideal randomness, for an event function with a law, a numeric find with a mean and a condition of positive probability, the value of bayesnet(f, n=n, find=..., conditional_on=...) is the mean of find over the events that meet the condition, and it tends to the conditional expectation of find given the condition as n grows.',
  'every event function with a law, every measurable numeric find with a mean, every condition with positive probability, every tolerance; the limit is over all n', 'A statement about probabilities and about the limit of infinitely many sample sizes.', [B+":bayesnet"])
p("C104", 'Mixture weights that do not sum to exactly one',
  'A mixture whose weights are accepted although they sum to something else than 1 (up to 1% off) samples every component but the last with its given probability and the last with the rest, for every number of samples, and does not fail.',
  'all lists of positive weights with a sum between 0.99 and 1.01, all components, bounds and sample sizes, all generators and all streams of an ideal generator', 'the failure depends on the random numbers and on the sum of the weights; a test with three weights of 0.333 and ten samples always passes', [S+":mixture_sample", S+":_mixture_sample_for_large_n", S+":_mixture_sample_for_small_n", U+":_process_weights_values"])
p("C105", 'Expressions that mean the same can be exchanged',
  'Rewriting an estimate by the usual rules does not change what is sampled. Operands of +, *, max and min can be swapped and regrouped, a - b is a + (-b), arithmetic on a mixture is the mixture of the results, a mixture inside a mixture can be flattened, k * norm + c and k * uniform + c are again norm and uniform, sums and differences of norms are norms, products and quotients of lognorms are lognorms, bernoulli(p) is mixture([1, 0], [p, 1 - p]), discrete is the mixture of its values, and nested zero_inflated is one zero_inflated: both sides give samples with the same joint distribution, for every number of samples. Parts of an expression can be replaced by parts with the same samples. x + x is not such a rewriting of 2 * x, because both occurrences of x are sampled.',
  'all distributions a, b, c built from numbers, named distributions, mixtures, discrete tables and arithmetic, all weights and parameters, all sample sizes', 'Two expressions are sampled with different random numbers, so a test can only compare their samples statistically, for particular expressions and sizes.', [S+":sample", S+":mixture_sample", S+":discrete_sample", D+":OperableDistribution", D+":zero_inflated"])
p("C106", 'Correlation does not change the mean of a sum',
  'If a and b are correlated with correlate(), the mean of the samples of a + b (a - b) estimates the sum (difference) of the means of a and b, whatever the correlation: given that sampling succeeds, the error is at least e with probability at most 4 (Var a + Var b) / (n e^2).',
  'all correlation groups of any size with continuous members without bounds, all correlation matrices, all sample sizes n >= 2', 'The samples of a and b are reordered jointly and are not independent of each other. A test can only look at a few matrices and seeds.', [S+":sample", S+":sample_correlated_group", C+":_induce_correlation"])
p("C107", 'Bounds of one cached call do not leak into another',
  'sample(d, lclip=..., rclip=..., memcache=True) returns samples within the bounds of this call and of d whether or not the cache answers, and the bounds passed to one call have no effect on what other calls return.',
  'all distributions, all histories of sample() calls with any options, all bounds, all states of the generator', 'which bounds an answer went through depends on which earlier call filled the cache, so every history has to be considered', [S+":sample"])
p("C108", 'one_in reads as the probability it was given',
  "one_in(p) for a probability p is '1 in X' with X the whole number nearest to 1/p, written in groups of three digits; 1/m gives exactly m, a larger p never gives a larger X, and with digits=k the number is within half of 10^(-k) of 1/p.",
  'all probabilities p > 0, all numbers of digits, all magnitudes of the result', 'rounding boundaries and digit groups exist at every magnitude', [U+":one_in", U+":_round"])
p("C109", 'discrete over distributions picks one of them and does not sample it',
  'A sample of discrete(items) whose items are distributions is one of the items itself, unsampled: n samples are n of the items, which places are chosen does not depend on what the items are, with weights of sum one the places are independent and each is chosen with the probability of its weight; resolving twice, ~~discrete(items), is one sample of mixture(items), value or error, from the same random numbers.',
  'all lists, pairs and dicts of distributions of any kind, all weights, numbers of samples and generator states; resolving twice: lists of fewer than 100 items, pairs and dicts of any size', 'the items are arbitrary objects and the choice goes through two different strategies depending on the number of samples', [S+":discrete_sample", S+":mixture_sample", S+":_mixture_sample_for_small_n", S+":_mixture_sample_for_large_n", U+":_process_discrete_weights_values"])
p("C110", 'Expected values and variances come out as worked out by hand',
  "If numpy's generator gives independent numbers with the laws its documentation states, the average and the variance of the samples of a model tend to the values one computes with pencil and paper: the textbook mean and variance of uniform, norm, lognorm, binomial, beta, bernoulli, poisson, chisquare, exponential, gamma, pareto, triangular, pert, geometric, dice and discrete, sums and differences add the means and add the variances, products multiply the means, mixtures average them with their weights.",
  'all models built from these by sums, differences, products, negation, division by a number and (nested) mixtures, all valid parameters; the variance whenever the textbook one is finite', 'a limit over sample sizes of a random quantity, for every model and every choice of parameters', [S+":sample", S+":uniform_sample", S+":normal_sample", S+":lognormal_sample", S+":gamma_sample", S+":pareto_sample", S+":pert_sample", S+":mixture_sample", S+":discrete_sample", D+":OperableDistribution.__add__", D+":OperableDistribution.__mul__"])
p("C111", 'The usual error bars of an average of samples are right',
  'The average of n samples of a model, plus or minus c standard errors (np.std(samples)/sqrt(n)), contains the true mean with a probability that tends to the chance that a standard normal variable is at most c away from 0; with c = norm.ppf(0.5 + cred/200) it tends to cred percent. The same holds for the average of any function of the samples, and for the fraction of samples with a property.',
  'every distribution that stands for a law with finite, positive variance (all expressions of C86), every measurable function of the samples, every c and every level between 0 and 100 percent', 'a statement about the limit of a probability over all sequences of random numbers', [S+":sample", U+":get_mean_and_ci"])
p("C112", 'Chances come out as worked out by hand',
  "If numpy's generator gives independent numbers with the laws its documentation states, the chance that a sample of a model is at most x (or less than x) is the one computed with pencil and paper: the textbook distribution functions of uniform, norm, lognorm, exponential, pareto, triangular, bernoulli, dice, geometric, binomial, poisson and discrete; bounds pile up the chance outside them on the bounds; dist_max multiplies the chances of being below, dist_min those of being above; mixtures average them; constants, minus, floor and ceiling move the threshold. The fraction of samples and the percentiles tend to these values.",
  'all models built from these by bounds, (nested) mixtures, maximum, minimum, minus, floor, ceiling, and arithmetic with a number; every threshold, every sample size and position, all valid parameters', 'a statement about probabilities for every model, threshold and choice of parameters', [S+":sample", S+":uniform_sample", S+":normal_sample", S+":lognormal_sample", S+":exponential_sample", S+":pareto_sample", S+":triangular_sample", S+":mixture_sample", S+":discrete_sample", D+":dist_max", D+":dist_min", D+":dist_floor", D+":dist_ceil", U+":get_percentiles"])
p("C113", 'Models with finitely many outcomes: listing the outcomes gives the chances',
  "For a model built from numbers, dice, bernoulli, binomial and discrete by arithmetic, maximum, minimum, rounding, bounds and mixtures, list every combination of outcomes with the product of their chances (and the weight of the component of a mixture). If numpy's generator gives independent numbers with the laws its documentation states, every sample meets a condition with the sum of the chances of the listed outcomes that meet it; the listed chances add up to 1; the fraction of samples, the mean and the variance tend to the values from the list.",
  'all such models (any nesting), all conditions, every sample size and position; division only when no listed divisor is 0, powers only where both Python and numpy define them', 'a statement about probabilities for every model and condition', [S+":sample", S+":bernoulli_sample", S+":binomial_sample", S+":discrete_sample", S+":mixture_sample", DI+":Die", D+":OperableDistribution.__add__", D+":OperableDistribution.__mul__", D+":dist_max", D+":dist_round"])
p("C114", 'bayesnet answers found by following the branches of the event function',
  "Take an event function that calls event(p), samples distributions with finitely many outcomes (also ones built from earlier results, and also coins and discrete distributions over texts), computes, branches with if and returns a value. Follow every branch and multiply the chances on the way. If numpy's generator gives independent numbers with the laws its documentation states, bayesnet with find is within delta of the sum of the chances of the branches that meet find, and bayesnet with find and conditional_on is within delta of the quotient of the sum over the branches that meet both and the sum over those that meet the condition, except with a probability that decreases exponentially with n; with a numeric find the result tends to the weighted average over those branches. In the README's examples this gives 0.18347 and 0.28417 for the alarm network, 2/3 and 1/3 for the Monty Hall problem and 59/480 for the bags of dice.",
  'all such functions (any number of steps and branches), all conditions, all n, all delta; event probabilities between 0 and 1 on the branches that are reached; no cached events, one core', 'a statement about probabilities for every event function and query', [B+":bayesnet", U+":event", U+":event_occurs", S+":sample", DI+":Coin", DI+":Die", D+":discrete"])
p("C115", 'normalize in floating-point arithmetic',
  'With every addition and division rounded to p binary digits (53 for Python floats), normalize of n numbers that are not negative and not all zero returns n numbers between 0 and 1; each differs from the exact share by at most 4 n 2^(-p) of that share, and they sum to 1 up to 4 n 2^(-p). They need not sum to 1 exactly: the shares of [1, 1, 1] never do.',
  'all lists of non-negative floats with a positive sum and n 2^(-p) at most 1/2, all correct roundings to nearest; no overflow or underflow', 'a bound for every list and every pattern of rounding errors', [U+":normalize"])
p("C116", 'The tolerance for weights covers rounding errors',
  'With every operation rounded to p binary digits: weights that are not negative and sum to between 0.9901 and 1.0099 are accepted by mixture and discrete however the additions are rounded, and those that sum to at most 0.9899 or at least 1.0101 are refused; leaving all weights out is always accepted and gives every value the same positive weight; relative weights that are not negative and not all zero are always accepted; a missing last weight is filled in with a positive remainder when the others sum to less than 1. In each case the resulting weights are accepted unchanged when they are processed again at sampling time.',
  'all lists of weights and values of up to 2^p/100000 entries, all correct roundings; no overflow or underflow', 'an acceptance statement for every list and every pattern of rounding errors', [U+":_process_weights_values", U+":normalize", D+":mixture", D+":discrete", S+":mixture_sample"])
p("C117", 'Components of mixtures in floating-point arithmetic',
  'With every addition rounded to p binary digits and uniform numbers of p binary digits, each component of a mixture or value of a discrete distribution is drawn with a chance that differs from its weight by at most 2^(-p)(1 + 5 n S) + 2|S - 1|, where n is the number of components and S the sum of the weights, and no call fails because of rounding. Violated in the second part: a mixture of seven distributions without weights can raise IndexError when more than 100 samples are requested, because the seven weights add up to 1 - 2^(-52) and the largest uniform number exceeds this; the chance of this is bounded.',
  'all weights that are not negative, all n with n 2^(-p) at most 1/2, all correct roundings', 'a bound on probabilities for every list of weights and every pattern of rounding errors, and a failure with a chance of 2^(-53) per sample', [S+":mixture_sample", S+":discrete_sample", U+":_process_weights_values"])
p("C118", 'Odds and laplace in floating-point arithmetic',
  'With every operation rounded to p binary digits: p_to_odds and odds_to_p are accurate to a relative error of 3 2^(-p); odds_to_p(p_to_odds(q)) is q up to a relative error of 7 2^(-p) for every probability q; odds_to_p never exceeds 1; laplace(s, n) lies between 0 and 1 and is accurate to a relative error of 5 2^(-p); p_to_odds(odds_to_p(o)) returns o up to a small relative error. Violated in the last part for huge odds: 2^(p+2) to one become probability 1, which p_to_odds refuses; while 2^(-p)(1 + o) is at most 1/16 the odds come back up to a relative error of 8 2^(-p)(1 + o).',
  'all probabilities, odds, successes and trials, all correct roundings with p at least 6; no overflow or underflow', 'a bound for all inputs and patterns of rounding errors', [U+":p_to_odds", U+":odds_to_p", U+":laplace"])
p("C119", 'kelly in floating-point arithmetic',
  'With every operation rounded to p binary digits, on every accepted input the adjusted price of kelly is exact up to a relative error of 4 2^(-p), the stake as a share of the bankroll up to 12 2^(-p)/(1 - market price), the stake in money up to 15 2^(-p)/(1 - market price) of the bankroll, and the expected return up to 8 2^(-p)/market price (before the numbers are rounded for display).',
  'all accepted prices, deferences and bankrolls, all correct roundings with p at least 6', 'a bound for all inputs and patterns of rounding errors', [U+":kelly", U+":half_kelly", U+":quarter_kelly"])
p("C120", 'event and bernoulli with uniform numbers of finitely many digits',
  'When uniform numbers are the 2^p equally likely multiples of 2^(-p) below 1 (p = 53 in numpy), event(q), event_happens and bernoulli(q) succeed with a chance that is at least q and less than q + 2^(-p); the chance is exactly q if and only if q is a multiple of 2^(-p), hence for every float q of at least 1/2; event(0) never happens and event(1) always does.',
  'all probabilities q between 0 and 1, all p', 'a statement about an exact probability for every q', [U+":event_occurs", U+":event_happens", U+":event", S+":bernoulli_sample"])
p("C121", 'uniform and pert in floating-point arithmetic',
  'With every operation rounded to p binary digits, every number of uniform(low, high) lies between low and high (high itself can be returned), and every number of pert(left, mode, right) lies between left and right. Violated in the last part: when the beta distribution behind pert returns 1, the number can be larger than right (with doubles, pert(-1, mode, 3/2^53) can return 1/2^51); this is the only case, and the excess is at most 2^(1-p)(right - left).',
  'all floats low <= high and left <= right, all floats drawn, all correct roundings', 'a bound for every pair of floats, every number drawn and every pattern of rounding errors', [S+":uniform_sample", S+":pert_sample"])
p("C122", 'simple_bayes in floating-point arithmetic',
  "With every operation rounded to p binary digits, simple_bayes returns a number between 0 and 1 that differs from the value of Bayes' rule by at most 7 2^(-p) of that value.",
  'all likelihoods that are not negative, all priors between 0 and 1 for which the rule is defined, all correct roundings with p at least 6; no underflow', 'a bound for all inputs and patterns of rounding errors', [B+":simple_bayes"])
p("C123", 'Updating a normal prior in floating-point arithmetic',
  'With every operation rounded to p binary digits, update of two normal distributions gives the precision-weighted mean up to 11 2^(-p) times the larger mean in size, and a positive standard deviation that is exact up to a relative error of 12 2^(-p).',
  'all means, all positive standard deviations, all evidence weights that are not negative, all correct roundings with p at least 6', 'a bound for all inputs and patterns of rounding errors', [B+":update"])
p("C124", 'norm(x, y) in floating-point arithmetic',
  'With every operation rounded to p binary digits, norm(x, y) with x <= y has a mean between x and y and a standard deviation sd that is not negative; with z the normal quantile used, mean + z sd is y up to 3 2^(-p)(y - x) and mean - z sd is x up to 2^(-p)|x + y| + 3 2^(-p)(y - x); if x < y then sd is positive. Violated in the last part for neighbouring floats: norm(1 + 2^(-52), 1 + 2^(-51)) has standard deviation 0; it holds whenever y - x exceeds 2^(-p)|x + y|.',
  'all floats x <= y, all positive quantiles, all correct roundings with p at least 6', 'a bound for all inputs and patterns of rounding errors', [D+":NormalDistribution", D+":norm"])
p("C125", 'What evidence_weight means',
  'Updating with the same evidence again and again with weights w1, ..., wk is updating once with weight w1 + ... + wk; weight 0 leaves the prior as it is; as the weight grows a normal posterior closes in on the mean of the evidence. Violated for beta distributions: the weight is ignored, so weight 0 changes every prior and two updates are never one update with weight 2.',
  'all normal, lognormal and gamma priors and evidence, all lists of weights that are not negative; for the violation all beta distributions', 'an identity over all parameters and all histories of updates', [B+":update"])
p("C126", 'Sampling what bayes.average returns',
  'average(prior, evidence) with weight w for the prior (given as a number, two numbers, relative weights or by default) returns a distribution whose samples are independent, each from the prior with probability w and from the evidence otherwise; their mean tends to the weighted mean of the two means, their variance to the weighted mean of the variances plus w(1-w) times the squared difference of the means.',
  'all priors and evidence with a law, all weights in [0,1) and all positive relative weights, all sample counts, all streams of an ideal generator', 'a statement about the distribution of the samples and their limit', [B+":average", D+":MixtureDistribution", S+":mixture_sample"])
p("C127", 'All percentiles at once',
  'With n samples of a distribution, all the fractions of samples below x, for all x at once, are within e of their probabilities, and so all percentiles 0..100 at once lie between the quantiles of the law at p/100 - 1/n - e and p/100 + 1/n + e, except with probability at most (8/e) exp(-n e^2/2); the bound does not grow with the number of percentiles asked for. Where the law has a continuous quantile function the percentiles converge to it uniformly; for norm(mean=m, sd=s) the limit is m + s z(p/100).',
  'all distributions with a law (leaves, operations, mixtures, bounds), all n, all e in (0,1], all percentiles or lists of percentiles, all streams of an ideal generator', 'a probability over all streams and an infinity of percentiles at once', [U+":get_percentiles", S+":sample"])
p("C128", 'The same seed with other numbers in the model',
  'If only numbers in a model are changed (parameters of its leaves, constants, bounds), then after the same seed the changed model draws as many samples, leaves the generator in the same state, fails exactly when the model fails, and each of its samples differs from the sample in the same place as the change of the numbers says, whatever the random numbers are: raising means, ends or scales raises every sample and with them the mean, every percentile and every count above a threshold; norm(mean=m+c, sd=s) gives the samples of norm(mean=m, sd=s) plus c; moving the mean of a norm by d and the ends of a uniform by e moves every sample of their sum by at most d + e. Hence raising numbers raises the probability above any threshold.',
  'all pairs of models of the same shape (leaves, operations, mixtures with the same weights, bounds) whose values are related for all standard random numbers, all n, all states of the generator', 'ranges over all pairs of models and all states of the generator', [S+":sample", S+":normal_sample", S+":mixture_sample", R+":set_seed"])
p("C129", 'Estimates with several cores are as accurate as with one',
  'sample(d, n, cores=c) gives estimates of the mean and of chances of d as accurate as n samples of one core: however the pool distributes its tasks over processes the call succeeds, the estimates converge as n grows, their error is bounded as for n independent samples, and the usual error bars hold.',
  'all distributions with a law, all c >= 2 and n >= c, all distributions of tasks over processes, all streams of an ideal generator, all contents of left-over files', 'a probability over all streams, and all ways the pool may distribute tasks', [S+":sample", U+":_core_cuts"])
p("C130", 'Conditional probabilities from bayesnet with several cores',
  'bayesnet(event_fn, n, find=f, conditional_on=g, cores=c) estimates the probability of f given g as well as with one core: however the pool distributes its tasks over processes the call succeeds, its error is bounded, the estimate converges to the conditional probability as n grows, and n events on c cores are worth n events on one core.',
  'all event functions with a law, all yes/no questions and conditions of positive probability, all c >= 2 and n >= c, all distributions of tasks over processes, all streams of an ideal generator, all formats that read back a (possibly changed) event for each one written', 'a probability over all streams, and all ways the pool may distribute tasks', [B+":bayesnet", U+":_core_cuts"])
p("C131", 'Sampling the objects that correlate returns',
  'The variables returned by correlate can be sampled like any other distribution: a read of one of them ends and returns its column of a joint draw of the given distributions, the other variables keep theirs for their own next read, and objects that were not passed to correlate are not affected. Sampling a net of objects gives the same samples as the expression tree that is obtained by writing the objects out.',
  'all heaps of distribution objects that a program can build by constructors and correlate calls, all variables passed to correlate, numbers of samples, bounds, generators, recursion limits and sequences of reads', 'objects refer to each other in cycles (a variable to its group, the group to its members), and whether following them ends depends on which variable is made of which; tests use two or three separate leaves', [C+":correlate", C+":CorrelationGroup.__post_init__", S+":sample_correlated_group", S+":sample", DI+":BaseDistribution"])
p("C132", 'More samples with the same seed',
  'After the same set_seed, asking for more samples of the same model gives the earlier samples again, followed by new ones: sample(d, n) is the beginning of sample(d, n + k). The same holds for the events of bayesnet.',
  'all models, bounds, numbers of samples n and k, generators that make their numbers one after the other, and seeds; all event functions', 'a test compares two numbers of samples of one model; whether a longer run begins with the shorter one depends on the order in which all parts of the model ask for random numbers, and on the number of samples itself', [S+":sample", S+":mixture_sample", S+":_mixture_sample_for_large_n", S+":_mixture_sample_for_small_n", B+":bayesnet", R+":set_seed"])
p("C133", 'Divisions by zero, infinities and nan in samples',
  'In a model built from float-valued distributions with + - * /, negation, dist_max, dist_min, lclip and rclip: with several samples nothing raises, each sample is the value in ordinary arithmetic unless a part divides by zero at that position, a sample that is an infinity or nan comes from such a division at its own position, and a nan in a part is a nan in the whole. With one sample a division by zero raises ZeroDivisionError. Means and chances computed from the samples show whether there were such samples.',
  'all expressions, draws, positions, numbers of samples, bounds and generator states', 'a test divides by a distribution that happened to be zero once; where infinities and nan go is a statement about all nestings of the operations', [S+":sample", D+":OperableDistribution", D+":dist_max", D+":dist_min", D+":lclip", D+":rclip", U+":get_mean_and_ci", U+":_simplify"])
p("C134", 'Correlated variables sampled with several cores',
  'After a, b = correlate(...), sample(a, n, cores=c) followed by sample(b, n, cores=c) returns n samples each, and position by position they come from one joint draw of the two variables, as with one core. Sampling an expression of a and b with several cores combines values of one joint draw.',
  'all groups, all members, all n and numbers of cores, all distributions of the tasks over processes, all generators', "all schedules and group sizes; FALSE for two calls: every core makes a joint draw but only the other columns of the last core's draw survive, and they are returned once per core, so b has c*(n/c + n%c) samples; true for one call on an expression", [S+":sample", S+":sample_correlated_group"])
p("C135", 'Textbook identities between the distributions',
  "With an ideal random number generator that has numpy's documented laws, the following pairs cannot be told apart by sampling them, whatever the number of samples: poisson(a) + poisson(b) and poisson(a + b); binomial(n, p) + binomial(m, p) and binomial(n + m, p); the sum of n bernoulli(p) and binomial(n, p); exponential(s) and gamma(1, s); chisquare(k) and gamma(k / 2, 2); gamma(a, s) + gamma(b, s) and gamma(a + b, s); c * gamma(a, s) and gamma(a, c * s), c * exponential(s) and exponential(c * s); the sum of n exponential(s) and gamma(n, s); the sum of n squares of norm(0, 1) and chisquare(n); dist_min of exponential(s) and exponential(t) and exponential(1 / (1 / s + 1 / t)); dist_min of geometric(p) and geometric(q) and geometric(p + q - p * q); dist_ceil(exponential(s)) and geometric(1 - exp(-1 / s)); beta(1, 1) and uniform(0, 1); 1 - beta(a, b) and beta(b, a); dist_max of beta(a, 1) and beta(b, 1) and beta(a + b, 1), with two uniform(0, 1) for beta(2, 1); uniform(0, 1) ** c and beta(1 / c, 1); the sum of two uniform distributions of the same width w and the triangular distribution over their joint range; pert with lam = 0 and uniform.",
  "all valid parameters, all numbers of terms, all sample sizes, all ideal sources with numpy's documented laws, all later uses of the generator", 'an identity of laws concerns every set of values and every parameter; a test of samples can only fail to notice a difference, and swapped scale/rate or a trial counted from 0 instead of 1 shift the result only by a factor or by one', [S+":sample", S+":poisson_sample", S+":binomial_sample", S+":gamma_sample", S+":exponential_sample", S+":chi_square_sample", S+":geometric_sample", S+":beta_sample", S+":triangular_sample", S+":pert_sample", D+":OperableDistribution", D+":dist_min", D+":dist_max", D+":dist_ceil"])
p("C136", 'Progress output does not change results',
  'sample(d, n, verbose=v) returns, raises and leaves behind the same for every v. With verbose=False no progress bar is shown. When a call succeeds, every bar it has shown was closed exactly when it had counted to its end, also with several cores.',
  'every distribution expression (also with functions, nested mixtures and correlated variables), every n, bounds, verbose, number of cores and state', 'A test captures the output of a few calls with few samples; the default of nested calls depends on the number of samples, and the bars count in steps of the number of cores.', [S+":sample", S+":_mixture_sample_for_large_n", S+":_mixture_sample_for_small_n", U+":_init_tqdm", U+":_tick_tqdm", U+":_flush_tqdm"])
p("C137", 'Percentiles in floating-point arithmetic',
  'Computed in floating-point arithmetic, the percentiles of get_percentiles lie between the smallest and the largest of the data, never decrease when the percentile grows, are exactly the extremes at 0 and 100 and exactly the middle number for the median of an odd number of data, and differ from the exact percentiles by no more than a few rounding units. get_median_and_ci returns an interval around the median for every credibility between 0 and 100.',
  'every list of floats, every list of percentiles, every credibility, every correct rounding to a fixed number of binary digits', 'Whether rounding of the position, of the fraction and of the interpolation can break the order of two percentiles depends on the last digits of the data; tests compare a few rounded values.', [U+":get_percentiles", U+":get_median_and_ci"])
p("C138", 'Means and relative frequencies in floating-point arithmetic',
  'Computed in floating-point arithmetic, the mean of get_mean_and_ci lies between the smallest and the largest of the data, does not decrease when data increase, and is within a few rounding units of the exact mean, whatever the order of the additions. The answer of bayesnet to a yes/no question is the correctly rounded relative frequency: between 0 and 1, 0 only if it never happened, 1 only if it always happened, and not smaller for a question that is answered yes more often.',
  'every non-empty list of floats and every order of adding them up; every list of events (up to 2^53), question and condition; every correct rounding to a fixed number of binary digits', 'Rounding errors depend on the data and on the order in which numpy adds them, which depends on their number; tests compare with a tolerance.', [U+":get_mean_and_ci", B+":bayesnet"])
p("C139", 'Models in floating-point arithmetic',
  'Sampling a model of positive quantities built with sums, products, quotients, dist_max, dist_min and bounds gives the same number of samples as exact arithmetic would, each within a relative error that depends only on the number of operations in the model, not on the values. Models of whole numbers that stay within 2^53 are computed without any error, subtractions included. With subtraction of larger numbers no such bound holds: a result can be wrong by 100 percent.',
  'every model built from these operations, every sample size, every generator and state, every correct rounding to a fixed number of binary digits', 'The error depends on the draws and on the shape of the model; tests compare a few models with a tolerance.', [S+":sample", D+":OperableDistribution"])
p("C140", 'What verbose=True prints is true',
  'Asking bayesnet or sample for messages changes nothing but the messages: result, caches, files and generator are as without, and without verbose (or with verbose=False) nothing is printed. Every line is true: if the event maker is called, it says that events are generated, and it says so only if no cache is loaded; it says that a cache or file is loaded only if its content is used and nothing is drawn, that a file was not found exactly if one was asked for and there is none, that something was cached only if it is there afterwards; in bayesnet every line announcing the start of a step is followed by the line announcing its end unless the call raises; the final line of bayesnet is printed exactly if it returns an answer. Two exceptions: with several cores the progress bar of bayesnet counts a wrong total, and sample announces that it uses the in-memory cache when the cached value is None but samples again.',
  'every event maker, finder, filter, reduction, distribution, sample size, combination of cache options, number of cores, generator and state', 'The messages depend on the history of caches and files and on which step raises; tests do not look at what is printed, or at one run of it.', [B+":bayesnet", S+":sample"])
p("C141", 'Whole-number models and 64-bit integers',
  'Sampling a model of whole numbers (dice, counts, and whole numbers combined with +, -, *, powers, dist_max, dist_min and bounds) gives the exact numbers as long as the result fits into 64 bits, even if numbers on the way do not; otherwise several samples give what is left of the exact number in 64 bits, without an error. A single sample of a model without comparisons is exact however large it is. The property that models of whole numbers are always computed exactly is false: die(6)**25 is negative for a roll of 6 in an array, but not as a single sample.',
  'every model built from these operations, every sample size, every lawful generator and state, every bound on the draws below 2^63', 'Overflow needs rare large draws and gives no error; tests use small numbers.', [S+":sample", D+":OperableDistribution", U+":_simplify"])
p("C142", 'Named large numbers and whole numbers beyond 64 bits',
  'Multiplying a whole-number distribution by a named number (thousand ... decillion) gives exact multiples, whichever side the number stands on. This holds for sextillion and beyond whatever is drawn, and for the smaller names while the products stay below 2^63; it is false for quintillion (quintillion * die(10) is negative for a roll of 10 among several samples). More generally a whole-number model is exact if every result on the way fits into 64 bits or is computed with a number that is too wide for them. With several cores the whole numbers come back as floats: exact up to 2^53, with a relative error of at most 2^-53 beyond. As floats the names up to sextillion are exact, the larger ones are not.',
  'every named number, every whole-number model, sample size, number of cores and schedule, every lawful generator and state, every correct rounding', 'Which representation numpy picks depends on the size of a literal, and what goes wrong depends on rare large draws and on the number of cores; tests use small numbers.', [S+":sample", "squigglepy/numbers.py:quintillion", "squigglepy/numbers.py:sextillion", D+":OperableDistribution"])
p("C143", "Updating and laplace are Bayes' theorem",
  "update(prior, evidence) is the posterior distribution of Bayes' theorem: for beta distributions, of a success probability after evidence.a successes and evidence.b failures; for normal distributions, of a number after evidence_weight measurements of evidence.mean with error evidence.sd; for lognormal ones the same for the logarithm. Samples of the result are independent draws from that posterior. laplace(s, n) is the probability of success in the next trial if all success probabilities were equally likely beforehand, and the mean of update(beta(1, 1), beta(s, n - s)); laplace(s, time_passed=t, time_remaining=r) is the probability of an event in the time r if events happen at an unknown rate, for a flat prior on the rate (nothing happened, or fixed time) or a flat prior on its logarithm. For gamma distributions update is never the posterior of a rate after evidence.shape events in the time 1/evidence.scale: its mean is always too large.",
  'all parameters, weights, numbers of events, times, every documented random source, number of samples and event about them', "Bayes' theorem speaks of whole distributions and of all parameters; tests compare a few parameters with formulas copied from the code.", [B+":update", U+":laplace", S+":sample"])
p("C144", 'Simulating an experiment agrees with update and laplace',
  'Draw a success probability p from beta(a, b), make N trials with event(p), and ask bayesnet about the experiments with s successes: the chance it finds for p to lie in a set tends to the chance given by update(beta(a, b), beta(s, N - s)), the average of p to the mean of that distribution; with p from uniform(0, 1) the frequency of success in one further trial is within delta of laplace(s, N), except with probability at most 4 exp(-2 n (delta / ((N + 1)(2 + delta)))^2) for n simulations.',
  'all a, b > 0, N, s <= N, sets, delta > 0, numbers of simulations, every documented random source', 'The two ways of computing a posterior share no code; that they agree is a statement about laws and limits, for all numbers of trials.', [B+":bayesnet", B+":update", U+":laplace", U+":event_occurs"])
p("C145", 'Pooling forecasts commutes with updating on evidence',
  'Updating every forecast with simple_bayes and then pooling with geomean_odds gives the same as pooling first and updating the pool; pooling the chances of the opposite event gives one minus the pool; and the pool does not fall when no forecaster lowers their probability. None of the first two holds of the plain geomean.',
  'all lists of probabilities strictly between 0 and 1 (missing ones allowed) keeping at least two, all acceptable weights in every accepted form, all positive likelihoods', 'An identity between two orders of composing public functions, over all lists, weights and likelihoods.', [U+":geomean_odds", B+":simple_bayes", U+":geomean"])
p("C146", 'Betting the stake that kelly reports wins in the long run',
  'Bet again and again on independent events of the chance given to kelly, simulated with bernoulli. The average log growth of the wealth tends to the expected one; the best stake (which kelly reports up to 0.0005) is ahead of any other fixed stake by a factor growing exponentially, except with exponentially small probability; and betting the reported stake costs next to nothing per bet. The last is false when the reported stake is rounded up to 1.0: the first loss then takes everything.',
  'all prices, chances, deferences, other stakes in [0, 1), numbers of bets, every documented random source', 'The claim is about all numbers of bets and about probabilities; a test plays a few bets.', [U+":kelly", DI+":bernoulli", S+":sample"])
p("C147", 'The date string of kelly is a calendar date',
  'resolve_date is accepted exactly if it writes a day of the calendar as YYYY-MM-DD (month and day with one or two digits, or a day with a blank); all other texts, such as 2023-02-29, raise ValueError. The yearly return is computed from the number of days of the calendar between today and that day, one less at any time after midnight, across months, leap years and centuries; on the day before (after midnight) the call raises ZeroDivisionError.',
  'all strings, all pairs of dates from the year 1 to 9999, all times of the day, all other arguments', 'All strings and all pairs of dates; leap years of centuries and month ends are rare in tests, and the result depends on the time of the day at which the test runs.', [U+":kelly"])
p("C148", 'Bounds with several cores',
  'sample(d, n, lclip, rclip, cores=c) with c > 1 returns only values within lclip and rclip (if they are in order), whatever left-over files there are; if all bounds, those of the call and those d was built with, are in order and there are no left-over files, all of them hold for every value, as on one core. Without bounds of its own, every value has the law of d with the part outside moved to the bounds. (The code violates the full statement: if lclip is above the rclip of d, one core returns rclip and several cores return lclip; and with a left-over test-core file and fewer samples than cores, values outside the bounds of d come back.)',
  'all distributions, bounds, numbers of samples and cores, assignments of tasks to processes, contents of the directory, generator states', 'The results depend on how the pool distributes the work, on files from earlier runs and on all bounds together; a test sees one schedule.', [S+":sample", U+":_core_cuts"])
p("C149", 'Answers of bayesnet from the same cached events are coherent',
  'If one bayesnet call with memcache=True has answered, then all its answers to yes/no questions (find) under yes/no conditions (conditional_on), asked in separate calls with memcache=True for no more events, are the conditional probabilities of one and the same probability: P(f|c) + P(not f|c) = 1, P(f and k|c) = P(k|c) P(f|c and k), P(f) = P(f|h)P(h) + P(f|not h)(1-P(h)), and P(h|f) is exactly what simple_bayes computes from P(f|h), P(f|not h) and P(h). Other calls in between (other event functions, no cache, cache files) do not matter; reloading, a restart or changing a returned list in place do. With memcache=False it does not hold: every call draws its own events.',
  'all event functions, questions, conditions, options of the first call without a file to load, histories of calls in between', 'The rules relate answers of different calls separated by arbitrary histories; a test sees a few questions and one history.', [B+":bayesnet", B+":simple_bayes"])
p("C150", 'Typing in what a distribution prints builds it again',
  "For constants (not texts), uniform, binomial, beta, bernoulli, t, log t, triangular, poisson, chi-square, exponential, gamma, pareto and geometric distributions and plain dice, the text of str(d) after '<Distribution> ' is a call of a function of the library that builds the same distribution, bounds included. For a normal distribution it builds the one with mean and sd rounded to two decimals, which is the same exactly if they have no more decimals. It does not hold for lognormal and inverse lognormal distributions (typing in the text always raises ValueError), PERT (there is no function PERT), coins (not a call) and constant texts (printed without quotes, so const('1') reads as const(1)).",
  'all parameters, bounds, and ways of writing floats', 'The claim is about every parameter combination of every family and its printed text.', [D+":__str__", D+":NormalDistribution", D+":LognormalDistribution", D+":TDistribution", D+":PERTDistribution", DI+":Die"])
p("C151", 'Percentiles and intervals follow the data',
  'get_percentiles, get_mean_and_ci and get_median_and_ci of data in other units a*x+b (a >= 0) are a times the old results plus b; for a <= 0 the percentile 100-p takes the place of p and the ends of the intervals change places. If no data point is lowered, no percentile is lowered; if no data point changes by more than eps, no percentile does. Weighted percentiles follow a change of units too if the data points are different.',
  'all data, percentiles, credibilities, factors and offsets (digits=None)', 'The claims relate two runs on arbitrary data of arbitrary length.', [U+":get_percentiles", U+":get_mean_and_ci", U+":get_median_and_ci"])
p("C152", 'A bayesnet cache file cut off at any byte is recognised; a complete one gives the events back',
  'A dump that finished, loaded again, gives the same number of samples and the same events in the same order, with tuples as lists and nothing else changed. If the process was stopped after any number of bytes but not all, or if anything follows the dump, loading raises a decoding error: never fewer or other events, and not the file that was there before. A dump is possible exactly if there are fewer than 2**32 events and each is made of None, booleans, 64-bit whole numbers, floats, texts, lists, tuples and dictionaries with texts as keys. Dumping what was loaded writes the same bytes. The same holds for the files of the cores.',
  'all lists of events, of any nesting, all numbers of samples and times, all crash points (byte counts), all earlier contents', 'Every byte of every file is a crash point; values can be nested arbitrarily and their byte form changes at 32, 128, 256, 65536, 2**32 and 2**63.', [B+":bayesnet"])
p("C153", 'A file of samples cut off at any byte is recognised; a complete one gives the samples back',
  'sample(..., dump_cache_file=...) followed by sample(..., load_cache_file=...) gives the same floats, whole numbers or truth values, bit by bit, in the same order, and a single value as a single value; different samples give different files. If the process was stopped after any number of bytes but not all, loading raises EOFError (nothing written) or ValueError: never fewer or other samples, and not the file that was there before. The same for the files of the cores. Bytes after a complete dump are not noticed.',
  'all arrays of samples of up to 2**63 values and single values, all crash points (byte counts), all earlier contents of the file', 'Every byte of every file is a crash point, and the header changes length with the number of samples.', [S+":sample"])
p("C154", 'Geometric means and pooled odds stay accurate in floating-point arithmetic',
  'geomean of n positive numbers between 1/M and M returns, with rounded additions, products and divisions and slightly wrong logarithms and exponentials (relative error e), a number that differs from the exact weighted geometric mean at most by the factor M**(2e + 5nu)*(1 + e), u the rounding unit; with relative weights M**(2e + 14nu)*(1 + e); without weights the exact value is the n-th root of the product. Raising values never lowers the result. geomean_odds returns a number above 0 and at most 1 within a similar factor of the exact pooled probability. For Python floats, up to 1000 numbers between 1e-9 and 1e9: off by less than one part in 1e10.',
  'all lists of positive numbers and weights, all orders of addition, every correct rounding, every logarithm and exponential of the stated accuracy', 'A test compares a few means with a tolerance; the error depends on all values, their number and the order of addition.', [U+":geomean",U+":geomean_odds",U+":p_to_odds",U+":odds_to_p",U+":_process_weights_values"])
p("C155", 'Growth rates, doubling times and extremize in floating-point arithmetic',
  'growth_rate_to_doubling_time(g) is off by a relative error of at most 4u(1+g)/g + 3e (u the rounding unit, e the error of log) and never longer for faster growth; doubling_time_to_growth_rate(d) is off by little compared with 2**(1/d). Both lose everything at the ends: a positive growth rate below u/2 raises ZeroDivisionError although it has a doubling time, and a doubling time above 4/u gives growth 0 although it is positive. extremize of a float is accurate on both sides of 1/2 and moves predictions away from 1/2, never across it and never outside 0 to 1.',
  'all positive growth rates and doubling times, all predictions that are floats, every correct rounding, every logarithm, exponential and power of the stated accuracy', 'Tests use rates of a few percent; the error grows without bound as the rate gets small.', [U+":growth_rate_to_doubling_time",U+":doubling_time_to_growth_rate",U+":extremize"])
p("C156", 'When a call fails',
  'A call that raises should leave no trace but the advanced generator. For sample: memory cache and cache files are as before, whatever the options, and several failed calls in a row change nothing. Left-over temporary files of failed calls do not change what a later multi-core call returns if its own draws work, and that call removes them. For bayesnet: if the events cannot be generated, caches and lists are as before; what the call leaves behind does not depend on whether conditional_on, find or reduce_fn raise. False with several cores: an exception in a worker never reaches the caller, who sees FileNotFoundError; a failed call can put its samples into a later call of another distribution, and a failed bayesnet call spoils the next one even if nothing fails in it.',
  'all distributions and functions, all exceptions, all options and cache contents, all schedules of the pool, all histories of failed calls', 'Tests of failures use one call on one core and look only at the exception.', [S+":sample",S+":multicore_sample",B+":bayesnet"])
p("C157", 'Lognormal parameters in floating-point arithmetic',
  'lognorm(x, y) computed with rounded arithmetic and computed logarithms has a credible interval whose ends are x and y up to a relative error of about (e + 5u) times the size of the logarithms; with doubles, below 1e-12 for all x and y between 1e-300 and 1e300. Its standard deviation is not negative if computed logarithms are monotone, and positive if y is not too close to x. lognorm(lognorm_mean=m, lognorm_sd=s) gets norm_mean right up to 13u + e|log|, and norm_sd up to a relative error of 12u(m^2+s^2)/s^2 + 2e. For s below about 5e-9 m, norm_sd is 0 although s is positive: every sample is the same number.',
  'all positive x <= y, all positive means and standard deviations, every correct rounding, every logarithm of the stated accuracy', 'Tests compare a few parameters at moderate sizes with a tolerance; the loss appears only for narrow distributions.', [D+":LognormalDistribution"])
p("C158", 'Sharpe ratios and standard deviations in floating-point arithmetic',
  'np.std of a list of numbers, computed with rounded arithmetic in any order of additions, is the root of the variance plus the squared error of the computed mean, up to a relative error of length + 4 roundings; for up to a million doubles whose standard deviation is at least a thousandth of their mean size, the relative error is below 2e-6. sharpe_ratio times this deviation is the mean return above the risk-free rate up to the error of the mean and two roundings. Returns without any deviation have no ratio. (Violated: three returns of 0.1 get a ratio above 1e15, because their computed mean is not 0.1.)',
  'all non-empty lists of numbers, every risk-free rate, every order of additions, every correct rounding', 'Tests compare one list of five returns; the error depends on length, order and cancellation.', [U+":sharpe_ratio"])
p("C159", 'Bucket percentages in floating-point arithmetic',
  'bucket_percentages computed with rounded arithmetic reports for every bucket a percentage between 0 and 100 that is 0 only for an empty bucket, 100 only for a bucket with all data, and right up to two roundings; a bucket with more data gets a larger percentage, buckets with equally many data the same. With as_percentage=False every value is the correctly rounded fraction, with normalize=False the number of data. Percentages of contiguous buckets that cover the data add up to 100. (Violated: only up to two roundings; three data in three buckets get less than 100 in total, and 7 of 100 data are reported as more than 7 percent.)',
  'all non-empty data, all custom buckets, all lists of edges, all distinct labels, every correct rounding; up to 2^p / 8 data (about 10^15 for doubles)', 'Tests compare a few percentages with a tolerance.', [U+":bucket_percentages"])
p("C160", 'The texts of get_log_percentiles read back as the percentiles',
  'With display=True and several percentiles, get_log_percentiles returns for each label of get_percentiles a text in scientific notation: an optional minus sign, one digit (0 only for zero), a point and exactly `digits` decimals, e, a sign and at least two digits. Read as a number, the text of a number is that number up to half a unit of the last digit, and larger numbers do not read as smaller ones. Read as a number, the text shown for a percentile is the percentile up to the last digit. (Violated: the percentile is rounded to `digits` decimals before it is formatted, so with the default digits a percentile of 0.01 is shown as 0.0e+00.)',
  'all numbers, all numbers of digits, all data, percentiles, weights', 'Tests compare a few texts; carries (9.96 becomes 1.0e+01), exponents of one and three digits, and small numbers need every case.', [U+":get_log_percentiles", U+":get_percentiles"])
p("C161", 'one_in in floating-point arithmetic',
  "For every whole number m up to 2^p / 8 (about 10^15 for doubles), one_in of the float nearest to 1/m is exactly m, and its text is '1 in m' with commas. A larger probability never gets a larger number. The number is 1/p up to one half and one rounding, and at least 1 for probabilities; 0 is refused. The number is a nearest whole number to 1/p. (Violated: just below 0.4 there is a float whose inverse is above 2.5 and which is shown as '1 in 2'.)",
  'all probabilities, all whole numbers up to the bound, every correct rounding', 'Tests check 1/10 and a few others; that no m is off by one needs all of them.', [U+":one_in", U+":_round"])
p("C162", 'laplace over time in floating-point arithmetic',
  'laplace(s, time_passed=t, time_remaining=r) with floats is a probability between 0 and 1, and 1 - (1 + r/t)^-k up to (9k+1) roundings and twice the error of the computed power, where k is 1 without events, otherwise their number, plus one for a fixed period. With correctly rounded powers, more time remaining, less time passed and more events never make it smaller. A positive chance is never shown as 0. (Violated: when the time passed is more than 2^(p+1) times the time remaining, the answer is exactly 0.)',
  'all event counts, times, correct roundings and computed powers of the stated accuracy', 'Tests compare a few calls with stored numbers; that no combination leaves [0, 1] or loses accuracy needs all of them.', [U+":laplace"])
p("C163", 'Weighted percentiles in floating-point arithmetic',
  'With floats, a weighted percentile lies between two neighbouring data or at one of them, up to 5 roundings of their distance and one of the larger; it is never below the smaller one; the percentile 0 with positive weights is exactly the smallest datum; in whatever order the weights are added. A weighted percentile lies within the data and a higher percentile is not smaller. (Violated: with the data -579.1, 4.2, 4.20000000000001 and weights 1, 98, 1 the percentile 49.99999999999999 is 4.2000000000000455, above all data and above the median.)',
  'all data, valid weights, percentiles, sorting orders, summation orders and correct roundings', 'Tests check a few lists at a few percentiles; an excess of one rounding shows only at special inputs.', [U+":_weighted_percentile", U+":get_percentiles"])
p("C164", 'Updating beta, gamma and lognormal priors in floating-point arithmetic',
  'With floats, a beta update adds the parameters up to one rounding, and counts of successes and failures add up exactly and in any order over any number of updates as long as the totals are at most 2^p. A gamma update gives the sum of the shapes and the weighted harmonic mean of the scales up to 3 and 11 roundings; a lognormal update the precision-weighted mean and the standard deviation of the logarithms up to 11 and 12 roundings. Every observed success raises the count. (Violated: a count of 2^(p+2) never grows again.)',
  'all parameters, weights, numbers of updates and correct roundings', 'Tests compare single updates with stored numbers; sequences of updates and accuracy for all parameters are out of reach.', [B+":update"])
p("C165", 'A value left without a weight, in floating-point arithmetic',
  'With floats, a mixture or discrete distribution given one value more than weights is refused when the weights sum to 1 or more by a margin of 2n roundings; when they sum to less than 1 by that margin the last value gets the remainder up to 4n roundings. In between it is refused, or the last value gets a weight of at most 2n roundings. The mistake of one value too many is always noticed. (Violated: ten weights of 0.1 and eleven values are accepted, five weights of 0.2 and six values are refused.)',
  'all weights, values, lengths and correct roundings', 'Whether the mistake is noticed depends on the rounding of the running sum; tests try a few lists of weights.', [U+":_process_weights_values"])
p("C166", 'The text of one_in with digits reads as the number',
  "For every probability and every number of digits k >= 1 (as long as the number has at most 15 significant digits), one_in(p, digits=k) is '1 in ' followed by a decimal number in the usual form: digits in groups of three, a point, one to k decimals, no zero at the end except in '.0'. Read back it is exactly the number one_in(p, digits=k, verbose=False), the multiple of 10^-k nearest to 1/p, and one over it is p up to the share 1/(2*10^k). Equal texts mean equal numbers; 0 raises ZeroDivisionError.",
  'all probabilities and numbers of digits', 'Trailing zeros, carries and groups of digits go wrong only for particular numbers; tests print a handful.', [U+":one_in", U+":_round"])
p("C167", 'Rounding to digits in floating-point arithmetic',
  'With floats, rounding to k digits (dist_round, the digits of percentiles, means and one_in) gives the float nearest to a decimal number with k decimals, off by at most half a unit of the last one and two roundings; it keeps the order of numbers, keeps every float that shows a decimal number with k decimals, and rounding twice is rounding once. Without digits the result is the nearest whole number. The result is always the decimal nearest to the float, and whole numbers are kept. (Violated: the float 2.675 is below 2.675 but is rounded to 2.68; 1801441648776863 rounded to one digit is 1801441648776863.25.)',
  'all numbers, digits and correct roundings', 'The failures are at single floats among 2^64; order and stability concern all pairs of floats.', [U+":_round", D+":dist_round"])
p("C168", 'Whole-number division of models',
  'a // b of whole-number models gives, sample by sample, the quotient of the samples of a and b rounded down (also for negative numbers), in any nesting with sums, differences, products, maxima and minima, as long as the numbers on the way are below 2^63; a single sample is right for numbers of any size. A divisor of 0 has the same effect for one sample and for several. (Violated: a single sample raises ZeroDivisionError, several samples are silently 0 there; -2^63 // -1 is negative among several samples.)',
  'all expressions of whole-number distributions, numbers of samples, generators and states', 'Rounding of negative quotients, rare zero divisors and 64-bit limits concern all draws.', [D+":OperableDistribution", S+":sample"])
p("C169", 'Splitting work over cores in floating-point arithmetic',
  'Although the number of samples is divided by the number of cores as a float, sample and bayesnet with several cores split fewer than 2^53 samples exactly as with exact division; for any number of samples there is one part for each core, the parts sum to the number of samples, and for up to 2^53 cores no part is negative. (The limit is needed: for 3*2^53 - 1 samples on three cores the parts differ from exact division.)',
  'all numbers of samples and cores, and correct roundings', 'A quotient just below a whole number could be rounded up; which pairs of numbers are affected cannot be tried out.', [U+":_core_cuts", S+":sample", B+":bayesnet"])
p("C170", 'Tables of percentiles with digits in floating-point arithmetic',
  'With floats and any number of digits, get_percentiles has a value for each percentile and its values never go down as the percentiles grow; they lie between the rounded smallest and the rounded largest number of the data. For data that are decimal numbers with at most that many digits they lie between the smallest and the largest number themselves, and these are the percentiles 0 and 100. The rounded interval of get_median_and_ci brackets the rounded median. (For data with more digits the rounded values can leave the range of the data.)',
  'all data of floats, lists of percentiles, credibilities, digits and correct roundings', 'Order after interpolating and rounding three times concerns all pairs of percentiles and all data.', [U+":get_percentiles", U+":get_median_and_ci", U+":_round"])
p("C171", 'Weights of any size in floating-point numbers with a largest and a smallest one',
  'With IEEE floats, including subnormal numbers, overflow and infinities, weights that are not negative are accepted, completed and kept exactly as in an arithmetic with as many digits and no limits on the size. Relative weights whose sum is below half the largest float become shares between 0 and 1 that are accurate up to rounding and up to the smallest positive float, sum to 1 as accurately, and lose no value whose share is more than twice the smallest positive float. (Relative weights whose sum exceeds the largest float all become 0: the call succeeds and keeps no value at all, also when the weights are equal.)',
  'all lists of finite floats that are not negative, values, formats and correct roundings', 'Overflow and underflow depend on the sizes and the number of the weights, which no finite set of cases covers.', [U+":_process_weights_values", U+":normalize", D+":MixtureDistribution"])
p("C172", 'norm(x, y) for floats of any size',
  'With IEEE floats, including subnormal numbers, overflow and infinities: for floats x <= y up to a quarter of 2^1024 (and a standard deviation in that range) norm(x, y) has a finite mean between x and y and a finite standard deviation that is not negative, and the interval that these stand for is [x, y] up to a few roundings of its width and of the mean, and up to the smallest positive float. (When x + y reaches 2^1024 the mean is infinite and the standard deviation is minus infinity, although x and y are finite, and no error is raised.)',
  'all pairs of floats, credibilities, formats and correct roundings', 'Which intervals overflow or underflow depends on all sizes of the ends.', [D+":NormalDistribution", D+":norm"])
p("C173", 'Models of positive quantities do not overflow within the range of their exponents',
  'A model built from distributions with positive samples by sums, products, quotients, maxima, minima and bounds has a range of binary exponents that can be read off its form: one more for a sum, the sum of both for a product or quotient. If this range is within that of IEEE floats, then no sample is infinite, nan or zero, every sample lies in the range, and every sample is accurate up to as many roundings as the model has. (It is not enough that the exact result is within the range: x * x / x is infinite for x = 2^600 and 0 for x = 2^-600.)',
  'all models of that form, distributions, numbers of samples, generators, formats and correct roundings', 'The bound concerns every model of any depth and every sample.', [S+":sample", D+":OperableDistribution", D+":ComplexDistribution"])
p("C174", 'Weights on Python 3.12 and later',
  'From Python 3.12 on, sum() of floats recovers the digits lost in each addition. There the sum of weights that are not negative has a relative error of one rounding plus a term in (n 2^-p)^2, so the error of normalize() no longer grows with the number of values; the documented tolerance (accepted between 0.9901 and 1.0099, refused outside 0.9899 to 1.0101), default weights, relative weights and a left-out last weight work as with the older sum; and a value without a weight is refused whenever the weights already sum to 1, without any margin (on Python 3.11 ten weights of 0.1 and eleven values are accepted).',
  'all lists of weights that are floats and not negative, lists of values, precisions and correct roundings', 'The error bound concerns every list and every rounding; the project supports Python 3.11 to 3.13, where the sums differ.', [U+":_process_weights_values", U+":normalize"])
p("C175", 'Updating normal distributions with floats of any size',
  'update() of a normal prior on normal evidence returns a finite mean within 11 roundings of the larger mean and a positive standard deviation within 12 roundings of itself, for IEEE floats with overflow and subnormal numbers, when the standard deviations and the evidence weight are between 2^-E and 2^E and each mean is zero or of such a size, with E = 138 for Python floats; this holds also when the two means cancel each other. (For standard deviations whose squares overflow or underflow, such as 2^600 or 2^-600, mean and standard deviation are nan.)',
  'all means, standard deviations and evidence weights in the range, formats and correct roundings', 'The bound concerns every combination of sizes and every rounding.', [B+":update", D+":norm"])
p("C176", 'Models with subtraction and changes of sign in floats of bounded size',
  'For IEEE floats with overflow and subnormal numbers, a model built with any of + - * /, negation, maxima, minima and clips, whose exponents as read off its form stay within the format (inputs zero or of size 2^-m to 2^m; each sum or difference may cost p binary digits), has the samples it would have with floats of unlimited exponents: none is infinite or nan, whatever cancels. Models of whole numbers within 2^p, with + - *, are computed exactly. (When parts leave the format, x*x - x*x is nan for x = 2^600.)',
  'all models, distributions with bounded exponents, formats, correct roundings, seeds and sample counts', 'Cancellation can leave values of any size; the claim concerns every value and every model.', [D+":OperableDistribution", S+":sample"])
p("C177", "Bayes' rule with floats of any size",
  "For IEEE floats with overflow and subnormal numbers and any probabilities, however small, simple_bayes() raises ZeroDivisionError or returns a number from 0 to 1, never an infinity or nan. When the likelihoods and the prior are floats that are zero or of size 2^-E to 2^E, with E = 229 for Python floats, and Bayes' rule is defined, it returns a number within 7 roundings of the exact one. (For smaller ones it may raise although the exact answer is 1, or return 0 although the exact answer is above 2^-27.)",
  'all likelihoods and priors, formats and correct roundings', 'The claim concerns every float, subnormal ones included, and every rounding.', [B+":simple_bayes"])
p("C178", 'Odds and probabilities with floats of any size',
  'For IEEE floats with overflow and subnormal numbers: p_to_odds() of every float strictly between 0 and 1 is positive, finite and within 3 roundings of p/(1-p); odds_to_p() of every positive finite float, up to the largest, is positive, at most 1 and within 3 roundings of o/(1+o); and odds_to_p(p_to_odds(p)) is within 7 roundings of p. No overflow, nan or loss of digits to subnormal numbers occurs.',
  'all floats between 0 and 1 and all positive floats, formats and correct roundings', 'There are about 2^63 positive floats; the bound concerns each and every rounding.', [U+":p_to_odds", U+":odds_to_p"])
p("C179", 'Uniform and PERT draws with floats of any size',
  'For IEEE floats with overflow and subnormal numbers, every number drawn from uniform(low, high) is finite and within [low, high] for all finite floats low <= high whose difference is finite, however small or large they are; the difference is finite when both ends have the same sign or are at most a quarter of the overflow limit. Otherwise numpy raises. The same holds for pert(left, mode, right) unless the beta distribution returns exactly 1; with a range that overflows pert draws can be infinite.',
  'all finite float bounds, all draws of the generator, formats and correct roundings', 'A violation needs particular bounds together with a particular draw; the claim concerns all of them.', [S+":uniform_sample", S+":pert_sample"])
p("C180", 'Kelly stakes with floats of any size',
  'For IEEE floats with overflow and subnormal numbers, and prices, deference and bankroll that are floats and zero or of size 2^-E to 2^E, with E = 151 for Python floats, on every accepted input the adjusted price, stake, target and expected return of kelly() (before they are rounded for display) are finite and within the bounds of C119 of the exact ones, also when the adjusted price cancels. (For a market price of 2^-1074 the expected return is infinite.)',
  'all prices, deferences and bankrolls in the range, formats and correct roundings', 'The bounds concern every combination of sizes and every rounding.', [U+":kelly"])
p("C181", 'Percentiles with floats of any size',
  'For IEEE floats with overflow and subnormal numbers, percentiles (as get_percentiles computes them without weights and digits) of any nonempty list of finite floats are finite and between the smallest and the largest of them, however small or large they are, as long as differences between data are finite. (The median of -2^1023 and 2^1023 is -inf.)',
  'all nonempty lists of finite floats with finite differences, all percentiles from 0 to 100, formats and correct roundings', 'The claim concerns every list and every rounding, subnormal numbers included.', [U+":get_percentiles"])
p("C182", 'Means with floats of any size',
  'For IEEE floats with overflow and subnormal numbers, the mean (as get_mean_and_ci and bayesnet compute it without weights and digits) of n finite floats of size at most 2^k, added in any order in which no number takes part in more than d additions, is finite if k + d is below the limit of the format (1024 for Python floats), and differs from the exact mean by at most (1+u)^n - 1 times the mean size, plus half the smallest positive float. (The mean of [2^1023, 2^1023] is inf.)',
  'all nonempty lists of finite floats, all orders of addition, formats and correct roundings', 'The claim concerns every list, order of addition and rounding, subnormal numbers included.', [U+":get_mean_and_ci", B+":bayesnet"])
p("C183", 'Relative frequencies with floats of bounded size',
  'For IEEE floats with overflow and subnormal numbers, the answer of bayesnet to a yes/no question, about up to 2^53 events and in whichever order they are counted, is the correctly rounded relative frequency among the events that meet the condition: finite, between 0 and 1, 0 only if the event never happened, 1 only if it always happened, and within one rounding of the relative frequency. It fails exactly when no event meets the condition.',
  'all lists of at most 2^p events, questions, conditions, orders of addition, formats and correct roundings', 'The claim concerns every list of events, order of addition and rounding.', [B+":bayesnet"])

with open("/verif/properties.jsonl", "w") as f:
    for q in P:
        f.write(json.dumps(q) + "\n")
print(len(P))
