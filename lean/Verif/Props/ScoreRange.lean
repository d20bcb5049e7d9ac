import Verif.Props.TargetScores

/-! # C73: the probabilities whose normal quantiles are taken -/

namespace Verif

variable {K : Type} [Field K] [LinearOrder K] [IsStrictOrderedRing K]

theorem scoresOf_congr {p p' : K → K} (h : ∀ x, 0 < x → x < 1 → p' x = p x) (col : List K) :
    scoresOf p' col = scoresOf p col := by
  refine List.map_congr_left fun r hr => h _ ?_ ?_
  · have := (mem_rankMin hr).1
    have : (0 : K) < r := by exact_mod_cast this
    positivity
  · have h2 := (mem_rankMin hr).2
    rw [div_lt_one (by positivity)]
    have : (r : K) ≤ col.length := by exact_mod_cast h2
    linarith

/-- **C73.** Imposing a correlation only ever takes normal quantiles of probabilities strictly between 0 and 1 (where
they are finite): another quantile function that agrees with the normal one on (0, 1) gives the same result for
every data. -/
theorem C73_quantiles_inside (C : CorrEnv K) (G : CorrGroup K) (cols : List (List K)) (p : K → K)
    (h : ∀ x, 0 < x → x < 1 → p x = C.ppf x) : G.induce { C with ppf := p } cols = G.induce C cols := by
  have : targetScores { C with ppf := p } cols = targetScores C cols := by
    unfold targetScores
    have : cols.map (scoresOf p) = cols.map (scoresOf C.ppf) :=
      List.map_congr_left fun c _ => scoresOf_congr h c
    simp only [this]
  unfold CorrGroup.induce
  rw [this]

/-- The scores of three draws are the quantiles at 1/4, 2/4 and 3/4, whatever happens at 0 and 1. -/
example : scoresOf (fun x : ℚ => if 0 < x ∧ x < 1 then 4 * x else 1000) [30, 10, 20] = [3, 1, 2] := by
  decide +kernel

end Verif
