import Verif.Model.Percentiles

/-!
# Means with rounding

As in `Model/Rounded`, `fl` is applied after every operation.  numpy adds numbers in an order that depends on their
number and on how they are stored, so the order is a parameter: a binary tree with the data as leaves.  `numpyOrder` is
the order for a plain array of floats.
-/

namespace Verif

variable {K : Type}

/-- An order of additions: data, and sums of two such. -/
inductive SumOrder (K : Type) where
  | one (x : K)
  | add (l r : SumOrder K)

namespace SumOrder

/-- The data, from left to right. -/
def leaves : SumOrder K → List K
  | .one x => [x]
  | .add l r => l.leaves ++ r.leaves

/-- The same order of additions for other data. -/
def map {ι : Type} (f : ι → K) : SumOrder ι → SumOrder K
  | .one i => .one (f i)
  | .add l r => .add (l.map f) (r.map f)

/-- The largest number of additions any of the data goes through. -/
def depth : SumOrder K → ℕ
  | .one _ => 0
  | .add l r => max l.depth r.depth + 1

/-- The sum, rounded after each addition. -/
def sumFl [Add K] (fl : K → K) : SumOrder K → K
  | .one x => x
  | .add l r => fl (l.sumFl fl + r.sumFl fl)

/-- One number after the other (numpy's `pairwise_sum` below 8 numbers, and its remainders). -/
def run (t : SumOrder K) (xs : List K) : SumOrder K := xs.foldl (fun t x => .add t (.one x)) t

/-- The 8 accumulators of numpy's `pairwise_sum`; what is left over in the end. -/
def accumulate (rs : List (SumOrder K)) (xs : List K) : List (SumOrder K) × List K :=
  if h : 8 ≤ xs.length then
    accumulate (List.zipWith (fun t x => .add t (.one x)) rs (xs.take 8)) (xs.drop 8)
  else (rs, xs)
termination_by xs.length
decreasing_by simp; omega

/-- Up to 128 numbers of numpy's `pairwise_sum`. -/
def block (xs : List K) : Option (SumOrder K) :=
  if xs.length < 8 then
    match xs with
    | [] => none
    | x :: xs => some (run (.one x) xs)
  else
    match accumulate ((xs.take 8).map .one) (xs.drop 8) with
    | ([r0, r1, r2, r3, r4, r5, r6, r7], rest) =>
      some (run (.add (.add (.add r0 r1) (.add r2 r3)) (.add (.add r4 r5) (.add r6 r7))) rest)
    | _ => none

end SumOrder

/-- numpy's `pairwise_sum`: more than 128 numbers are cut into two halves, the first a multiple of 8 long.  There is no
order for no data. -/
def numpyOrder (xs : List K) : Option (SumOrder K) :=
  if h : xs.length ≤ 128 then SumOrder.block xs
  else
    let n2 := xs.length / 2 - xs.length / 2 % 8
    match numpyOrder (xs.take n2), numpyOrder (xs.drop n2) with
    | some l, some r => some (.add l r)
    | _, _ => none
termination_by xs.length
decreasing_by all_goals (simp; omega)

variable [Field K]

/-- `np.mean` (utils.py:590, bayes.py:304-305): the sum, divided by the number of data. -/
def npMeanFl (fl : K → K) (t : SumOrder K) : K := fl (t.sumFl fl / t.leaves.length)

/-- The answer of `bayesnet` (bayes.py:278-305) with a `find` and a `conditional_on` that return booleans; `order` is how
numpy adds up the list of booleans, as 0.0 and 1.0. -/
def bayesAnswerFl {α : Type} (fl : K → K) (order : List K → SumOrder K) (find cond : α → Bool) (events : List α) :
    Except PyErr K :=
  let kept := events.filter cond
  if kept.length < 1 then .error .valueError
  else .ok (npMeanFl fl (order (kept.map fun e => if find e then 1 else 0)))

end Verif
