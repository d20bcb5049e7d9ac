import Verif.Model.Correlation
import Mathlib.Data.Real.Basic
import Mathlib.LinearAlgebra.Eigenspace.Matrix

/-!
# `correlate` (`squigglepy/correlation.py:55-208`)

Distribution objects live on a heap: an object is known by its address.  A correlated variable points
to its group and a group to its members, so `correlate` builds a cyclic structure.  A distribution
object also points to the distributions it is built from (operands, mixture components).
-/

namespace Verif

/-- A distribution object: what it is (`payload`), the objects it is built from, and the attribute
`correlation_group` (distributions.py:45-46, 204-212, 1713-1721). -/
structure DNode (P : Type) where
  payload : P
  kids : List ℕ
  group : Option ℕ

/-- A `CorrelationGroup` object (correlation.py:167-178). -/
structure GNode where
  members : List ℕ
  info : CorrGroup ℝ

/-- All distribution objects and all group objects. -/
structure DHeap (P : Type) where
  nodes : List (DNode P)
  groups : List GNode

/-- The argument `correlation` (correlation.py:57): a number, a list of rows, or a flat list. -/
inductive CorrArg where
  | number (c : ℝ)
  | rows (m : List (List ℝ))
  | flat (v : List ℝ)

/-- `assert all(v.correlation_group is None for v in variables)` (correlation.py:132).  An address
without an object stands for a value that is not a distribution: it has no such attribute. -/
def checkUngrouped {P : Type} (h : DHeap P) : List ℕ → Except PyErr Unit
  | [] => .ok ()
  | v :: vs =>
    match h.nodes[v]? with
    | none => .error .attributeError
    | some nd => match nd.group with
      | some _ => .error .assertionError
      | none => checkUngrouped h vs

/-- `np.full((k, k), c)` with `np.fill_diagonal(…, 1)` (correlation.py:147-151). -/
def constMatrix (k : ℕ) (c : ℝ) : List (List ℝ) :=
  (List.range k).map fun i => (List.range k).map fun j => if i = j then 1 else c

/-- The correlation matrix (correlation.py:134-154).  A list of rows of different lengths is refused by
`np.array(…, dtype=np.float64)` (ValueError).  An array with one dimension has no `shape[1]`
(correlation.py:184, IndexError); this covers the empty list. -/
noncomputable def toMatrix (k : ℕ) : CorrArg → Except PyErr (List (List ℝ))
  | .number c => if -1 < c ∧ c < 1 then .ok (constMatrix k c) else .error .assertionError
  | .rows m =>
    if ∃ r ∈ m, r.length ≠ (m.headD []).length then .error .valueError
    else if m = [] then .error .indexError
    else .ok m
  | .flat _ => .error .indexError

/-- The rows as a square matrix. -/
noncomputable def squareOf (k : ℕ) (m : List (List ℝ)) : Matrix (Fin k) (Fin k) ℝ := fun i j => entry m i j

open Classical in
/-- The checks of `CorrelationGroup.__post_init__` (correlation.py:180-204), in order.
`np.linalg.eigvals` is exact here and only real eigenvalues are looked at: a symmetric matrix has no
others, and a matrix that is not symmetric fails the next check with the same exception. -/
noncomputable def checkMatrix (k : ℕ) (m : List (List ℝ)) : Except PyErr Unit :=
  if ¬ (m.length = (m.headD []).length ∧ (m.headD []).length = k) then .error .assertionError
  else if ¬ (∀ i < k, entry m i i = 1) then .error .assertionError
  else if ¬ (∀ r ∈ m, ∀ x ∈ r, -1 ≤ x ∧ x ≤ 1) then .error .assertionError
  else if ¬ (∀ e : ℝ, Module.End.HasEigenvalue (Matrix.toLin' (squareOf k m)) e → 0 ≤ e) then
    .error .assertionError
  else if ¬ (∀ i < k, ∀ j < k, entry m i j = entry m j i) then .error .assertionError
  else .ok ()

/-- A copied object points to copied objects. -/
def DNode.shift {P : Type} (N G : ℕ) (nd : DNode P) : DNode P :=
  { payload := nd.payload, kids := nd.kids.map (N + ·), group := nd.group.map (G + ·) }

/-- A copied group has copied members. -/
def GNode.shift (N : ℕ) (g : GNode) : GNode := { g with members := g.members.map (N + ·) }

/-- `deepcopy` (correlation.py:159): every object reached is copied once, pointers between copied
objects go to the copies.  The model copies the whole heap: the copies of objects that `deepcopy` would
not reach are referenced by nothing the caller holds. -/
def DHeap.deepcopy {P : Type} (h : DHeap P) : DHeap P :=
  { nodes := h.nodes ++ h.nodes.map (DNode.shift h.nodes.length h.groups.length)
    groups := h.groups ++ h.groups.map (GNode.shift h.nodes.length) }

/-- `dist.correlation_group = self` (correlation.py:206-208). -/
def linkOne {P : Type} (g : ℕ) (nodes : List (DNode P)) (v : ℕ) : List (DNode P) :=
  nodes.modify v fun nd => { nd with group := some g }

/-- `CorrelationGroup(variables, matrix, tolerance, min_unique)` (correlation.py:162, 180-208). -/
noncomputable def mkGroup {P : Type} (h : DHeap P) (vs : List ℕ) (info : CorrGroup ℝ) :
    Except PyErr Unit × DHeap P :=
  match checkMatrix vs.length info.matrix with
  | .error e => (.error e, h)
  | .ok _ => (.ok (), { nodes := vs.foldl (linkOne h.groups.length) h.nodes
                        groups := h.groups ++ [⟨vs, info⟩] })

/-- `correlate` (correlation.py:55-164): result (the addresses of the returned variables) and the heap
afterwards. -/
noncomputable def correlate {P : Type} (h : DHeap P) (vars : List ℕ) (corr : CorrArg)
    (tol : Option ℝ) (minUnique : ℕ) : Except PyErr (List ℕ) × DHeap P :=
  if vars.length < 2 then (.error .valueError, h)
  else match checkUngrouped h vars with
    | .error e => (.error e, h)
    | .ok _ => match toMatrix vars.length corr with
      | .error e => (.error e, h)
      | .ok m =>
        let copies := vars.map (h.nodes.length + ·)
        match mkGroup h.deepcopy copies ⟨m, tol, minUnique⟩ with
        | (.error e, h') => (.error e, h')
        | (.ok _, h') => (.ok copies, h')

end Verif
