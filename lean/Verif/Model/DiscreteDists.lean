import Verif.Model.HashKeys
import Verif.Model.MixtureObj

/-!
# `discrete` over distributions

`discrete([norm(0, 1), norm(5, 1)])` picks one of its items and hands it back unsampled: the items are wrapped in
`const` (samplers.py:611), and a sample of `const(d)` is `d` itself (samplers.py:1137-1138).
-/

namespace Verif

variable {σ K : Type} [Field K] [LinearOrder K] [FloorRing K] {ι : Type}

/-- `_run_mixture` over constants for up to 100 samples (samplers.py:761-768): one uniform number picks an item,
nothing else is drawn. -/
def chooseOne (E : Env σ K) (ws : List K) (vals : List ι) : SM σ K ι :=
  SM.bind (drawSM E (.uniform 0 1) 1) fun us st =>
    match us with
    | [.flt u] =>
      (match vals[pickSmall ws u]? with
      | some i => SM.pure i st
      | none => SM.throw .indexError st)
    | _ => SM.throw .unmodelled st

/-- The item that one of many uniform numbers picks (samplers.py:736-739); every sample of `const(d)` is `d`. -/
def chooseLarge (ws : List K) (vals : List ι) (u : Scalar K) : Except PyErr ι :=
  match u with
  | .flt u =>
    (match pickLarge ws u with
    | .error e => .error e
    | .ok index => (match vals[index]? with | some i => .ok i | none => .error .indexError))
  | _ => .error .unmodelled

/-- `mixture_sample` over constants that hold objects (samplers.py:833-855); the list of the `n` objects. -/
def chooseRun (E : Env σ K) (ws : List K) (vals : List ι) (n : ℕ) : SM σ K (List ι) := fun st =>
  match (processWeightsValues (fun _ => false) (.list (ws.map some)) .absent
      (.list (vals.map .plain)) false).result with
  | .error e => SM.throw e st
  | .ok (ws', items) =>
    match items.filterMap VItem.plain? with
    | [i] => SM.pure (List.replicate n i) st
    | vals' =>
      if n > 100 then SM.bind (drawSM E (.uniform 0 1) n)
        (fun us => SM.lift (mapExcept (chooseLarge ws' vals') us)) st
      else SM.replicateL (chooseOne E ws' vals') n st

/-- What `discrete_sample` makes of its items (samplers.py:609, utils.py:96-107): a list of 100 or more plain items
goes through `Counter`. -/
def discreteOf {κ : Type} [DecidableEq κ] (key : ι → κ) (arg : VArg K ι) : Except PyErr (List K × List (VItem K ι)) :=
  match arg with
  | .list vs =>
    if vs.all VItem.isPlain then processDiscreteBy key (vs.filterMap VItem.plain?)
    else (processWeightsValues (K := K) (fun _ => false) .absent .absent arg false).result
  | arg => (processWeightsValues (K := K) (fun _ => false) .absent .absent arg false).result

/-- What `mixture` makes of its items (distributions.py:1716). -/
def mixtureOf (arg : VArg K ι) : Except PyErr (List K × List (VItem K ι)) :=
  (processWeightsValues (K := K) (fun _ => false) .absent .absent arg false).result

/-- `sample(discrete(items), n)` for items that are distributions, given what
`_process_discrete_weights_values(items)` returned (samplers.py:609-620). -/
def discreteChoose (E : Env σ K) (p : List K × List (VItem K ι)) (n : ℕ) : SM σ K (List ι) :=
  if n = 0 then SM.throw .valueError else chooseRun E p.1 (p.2.filterMap VItem.plain?) n

/-- One sample of the one object in a list. -/
def resolveOnly (comp : ι → ℕ → SM σ K (Samples K)) : List ι → SM σ K (Samples K)
  | [i] => comp i 1
  | _ => SM.throw .unmodelled

/-- `~~discrete(items)` (distributions.py:89-92): sample the object that `~discrete(items)` returns. -/
def doubleResolve (E : Env σ K) (p : List K × List (VItem K (Obj (St σ K) K))) : SM σ K (Samples K) :=
  SM.bind (discreteChoose E p 1) (resolveOnly fun d n => sampleObj E d n none none)

end Verif
