# Formal model of squigglepy in Lean 4

Source modelled: `/repo/squigglepy/{utils,distributions,samplers,bayes,correlation,rng}.py`
(the pinned commit; the code is never run here, only read). This file is generated by
`tools/gen_design.py`; do not edit it by hand.

## Layout

* `lean/Verif/Model/*.lean` — the model, function by function; every definition cites file and lines.
* `lean/Verif/Spec/*.lean` — small specifications that do not mention the model.
* `lean/Verif/Lemmas/*.lean` — helper lemmas.
* `lean/Verif/Props/*.lean` — the property theorems (names start with the property id, `C01_…`),
  each with an `example` that its hypotheses are met by a concrete non-trivial case.
* `properties.jsonl` — the properties in English; `MANIFEST.json` — which theorems prove which property.
* `AXIOMS.txt` — the axioms of every theorem named in the manifest, as Lean reports them.
* `seeded/` — wrong programs the theorems were tested against (`LOG.jsonl`, the edits in `mutants*.py`).
* Theorems ending in `_partial` prove part of a property. Theorems ending in `_fails` prove that the full
  property is false of the code, by a concrete witness. A property whose theorem list contains a `_fails`
  is false of the code as stated, and its remaining theorems say exactly how much of it holds.

## Modelling choices

* **Numbers.** Python floats are modelled by exact elements of an ordered field `K` (rational for concrete
  examples, real where `exp/log/sqrt`, probability or measure is involved). Rounding, overflow and
  NaN/inf arithmetic of IEEE floats are *not* modelled; where Python would produce `nan`, `inf` or a
  complex number the model raises `unmodelled`. `int`, `float`, `bool`, `str` and `None` samples are kept
  apart, because numpy's result types (`np.array`, `np.vectorize`) depend on them. 64-bit overflow of
  integers is not part of the main model; `Model/MachineSample` (C141) and `Model/WideSample` (C142) add it for models of whole numbers.
* **Exceptions** are values (`Except PyErr`, one constructor for each exception class); state survives an
  exception. Messages are not modelled.
* **Randomness.** numpy's generator is an oracle `Gen`: a state and, for every primitive request
  (`uniform`, `normal`, …) and size, either an error or a list of values, and a next state. Theorems hold
  for every oracle; where needed they assume it is `Lawful` (right number of values, inside numpy's
  documented range), and a concrete lawful oracle is exhibited (`Lemmas/DemoGen.lean`). Exact
  probabilities of one draw are stated with Lebesgue measure on the uniform draw, or Mathlib's Gaussian
  measure. For the laws of whole samples (C86–C88) the oracle is an ideal source (`Model/IdealSource.lean`):
  its state is an infinite stream of independent inputs and every number is a function of one input; that
  numpy's pseudo-random numbers behave like this is an idealisation, not a theorem. So is that `float ** float`
  is the power of real numbers for natural exponents and for positive bases, and that `exp`, `log` and `norm.ppf`
  are exact (fields of `Drives`).
* **Loops** become recursion over lists; the unbounded `while` of exploding dice takes fuel, which
  may depend on the die and on the state of the generator.  `Env.Patient` says that every loop with an end is
  carried out to its end, which is what Python does; `Env.patient_patient` shows that there is such an
  environment for every generator.  Theorems about laws assume it; the others hold for any fuel.
* **Hidden state** (generator, caches, files, left-over correlated samples, heap aliasing of lists and
  distribution objects) is explicit state; histories are lists of operations.
* **External functions** (`exp`, `log`, `float ** float`, `norm.ppf`, `str`, Cholesky, `spearmanr`,
  `json`/`np.save` encoders) are parameters. What a theorem needs of them is a hypothesis of the theorem,
  and is shown to be satisfiable.
