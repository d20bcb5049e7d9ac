import Verif.Model.Correlate
import Verif.Model.Sample
import Mathlib.Algebra.Order.Archimedean.Real.Basic

/-!
# `sample()` on distribution objects that point to each other (samplers.py:858-905, 1057-1135, 1216-1222)

`Verif/Model/Sample.lean` describes a distribution by a tree.  In Python it is an object with references to
other objects: operands, mixture components and the correlation group, which refers back to its members
(`Verif/Model/Correlate.lean`).  Here `sample` follows the references.  Nothing forces them to be free of
cycles; Python stops a computation that calls itself too deeply with a `RecursionError`, here after `fuel`
nested calls (`PyErr.outOfFuel`).

A number used as an operand or component is represented by a constant distribution, whose samples are the
same (samplers.py:1105-1111, 1137-1138).  Python functions inside distributions are not part of this model.
-/

namespace Verif

noncomputable section

variable {σ : Type}

/-- What a distribution object is, apart from the objects it refers to. -/
inductive HPay where
  | leaf (l : Leaf ℝ) (lc rc : Option (Scalar ℝ))
  | mix (ws : List ℝ) (lc rc : Option (Scalar ℝ))
  | un (f : UnFn)
  | bin (f : BinFn)

/-- `dist.lclip`, `dist.rclip` (samplers.py:1061-1063). -/
def HPay.clips : HPay → Option (Scalar ℝ) × Option (Scalar ℝ)
  | .leaf _ lc rc => (lc, rc)
  | .mix _ lc rc => (lc, rc)
  | _ => (none, none)

/-- The external functions; `induce` is `induce_correlation` of a group (correlation.py:210-269). -/
structure HEnv (σ : Type) where
  E : Env σ ℝ
  induce : CorrGroup ℝ → List (List ℝ) → Except PyErr (List (List ℝ))

/-- `target_distribution._correlated_samples = samples[:, i]` (samplers.py:893).  The samples kept in the
object with address `b` are entry `b` of group 0 of the state. -/
def keepCol (b : ℕ) (c : List ℝ) (s : St σ ℝ) : St σ ℝ :=
  { s with left := fun g j => if g = 0 ∧ j = b then some (c.map .flt) else s.left g j }

/-- The loop that stores the columns (samplers.py:889-900): every object other than the requested one keeps
its column, of the requested object's columns the last is returned. -/
def heapStore (a : ℕ) : List ℕ → List (List ℝ) → Option (List ℝ) → SM σ ℝ (Samples ℝ)
  | [], _, none => SM.throw .assertionError
  | [], _, some c => SM.pure (.arr (c.map .flt))
  | _ :: _, [], _ => SM.throw .indexError
  | b :: bs, c :: cs, req => fun s =>
    if a ≠ b then heapStore a bs cs req (keepCol b c s) else heapStore a bs cs (some c) s

/-- `sample_correlated_group` (samplers.py:858-902); `rec` is the nested call of `sample`. -/
def heapGroup (X : HEnv σ) (H : DHeap HPay) (rec : ℕ → Bool → ℕ → SM σ ℝ (Samples ℝ)) (a g n : ℕ) :
    SM σ ℝ (Samples ℝ) :=
  match H.groups[g]? with
  | none => SM.throw .attributeError
  | some G =>
    SM.bind (SM.mapL (fun b => SM.bind (rec b false n) fun x => SM.lift (toColumn n x)) G.members) fun cols =>
    SM.bind (SM.lift (X.induce G.info cols)) fun cols' =>
    heapStore a G.members cols' none

/-- The dispatch on the type of the distribution (samplers.py:1137-1228).  Nested calls may correlate again
(`_correlate_if_needed=True` is the default, samplers.py:916). -/
def heapDispatch (X : HEnv σ) (rec : ℕ → Bool → ℕ → SM σ ℝ (Samples ℝ)) (nd : DNode HPay) (n : ℕ) :
    SM σ ℝ (Samples ℝ) :=
  match nd.payload, nd.kids with
  | .leaf l _ _, _ => leafSample X.E l n
  | .mix ws _ _, kids => mixtureRun X.E (fun (i : Fin kids.length) m => rec kids[i] true m) ws
      (List.finRange _) n
  | .un f, [l] => SM.bind (rec l true n) fun x => SM.lift (unSamples X.E f x)
  | .bin f, [l, r] => SM.bind (rec l true n) fun x => SM.bind (rec r true n) fun y =>
      SM.lift (binFnSamples X.E f x y)
  | _, _ => SM.throw .unmodelled

/-- samplers.py:1113-1135: a member of a group returns the samples kept for it, once; without any the whole
group is sampled. -/
def heapRaw (X : HEnv σ) (H : DHeap HPay) (rec : ℕ → Bool → ℕ → SM σ ℝ (Samples ℝ)) (a : ℕ)
    (nd : DNode HPay) (corr : Bool) (n : ℕ) : SM σ ℝ (Samples ℝ) :=
  match corr, nd.group with
  | true, some g => SM.bind (takeLeft 0 a) fun kept st =>
      match kept with
      | some xs => SM.pure (.arr xs) st
      | none => heapGroup X H rec a g n st
  | _, _ => heapDispatch X rec nd n

/-- `sample(dist, n, lclip, rclip, _correlate_if_needed)` for the object with address `a`, with room for
`fuel` nested calls. -/
def heapSample (X : HEnv σ) (H : DHeap HPay) : ℕ → ℕ → Bool → ℕ → Option (Scalar ℝ) → Option (Scalar ℝ) →
    SM σ ℝ (Samples ℝ)
  | 0, _, _, _, _, _ => SM.throw .outOfFuel
  | fuel + 1, a, corr, n, lc, rc =>
    match H.nodes[a]? with
    | none => SM.throw .unmodelled
    | some nd => withClips X.E nd.payload.clips
        (heapRaw X H (fun b c m => heapSample X H fuel b c m none none) a nd corr) n lc rc

/-- `correlate` with the samples that objects keep (`_correlated_samples`, distributions.py:47): `deepcopy`
(correlation.py:159) copies them along with the objects. -/
def correlateSt (h : DHeap HPay) (vars : List ℕ) (corr : CorrArg) (tol : Option ℝ)
    (minUnique : ℕ) (s : St σ ℝ) : Except PyErr (List ℕ) × DHeap HPay × St σ ℝ :=
  let out := correlate h vars corr tol minUnique
  (out.1, out.2,
    { s with
      left := fun g j =>
        if g = 0 ∧ h.nodes.length ≤ j ∧ j < out.2.nodes.length then s.left 0 (j - h.nodes.length)
        else s.left g j })

end

end Verif
