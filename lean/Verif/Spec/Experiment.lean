import Verif.Model.EventFn

/-!
# An experiment to simulate

The user's function

    def experiment():
        p = ~prior
        successes = 0
        for _ in range(N):
            if event(p):
                successes += 1
        return {'p': p, 'successes': successes, 'next': event(p)}

An event is the triple of `p`, the number of successes and the outcome of the next trial.
-/

namespace Verif.Spec

/-- The rest of the function when `N` trials are still to come, the success probability is `p` and there have been `c`
successes so far. -/
noncomputable def trials (S : Type) : (N : ℕ) → {Γ : Type} → [MeasurableSpace Γ] → (p : Γ → ℝ) → Measurable p → (c : Γ → ℕ) →
    Measurable c → EventFn S (ℝ × ℕ × Bool) Γ
  | 0, _, _, p, hp, c, hc => .happens p hp (.ret (fun γ => (p γ.1, c γ.1, γ.2)) (by fun_prop))
  | N + 1, _, _, p, hp, c, hc => .happens p hp (trials S N (fun γ => p γ.1) (by fun_prop)
      (fun γ => if γ.2 then c γ.1 + 1 else c γ.1)
      (Measurable.ite (measurable_snd (measurableSet_singleton true)) (by fun_prop) (by fun_prop)))

/-- The whole function. -/
noncomputable def experiment {S : Type} (prior : Obj S ℝ) (N : ℕ) : EventFn S (ℝ × ℕ × Bool) Unit :=
  .draw prior (trials S N (fun γ => γ.2) (by fun_prop) (fun _ => 0) measurable_const)

end Verif.Spec
