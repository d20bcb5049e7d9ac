import Verif.Model.Dice
import Verif.Model.Constructors

/-!
# Distributions that keep the caller's list or dict

`Die.__init__` stores the `explode_on` list and `CategoricalDistribution.__init__` the `items` list or dict as
they are, without a copy (dice.py:35, distributions.py:1230); `MixtureDistribution.__init__` stores the new
lists that `_process_weights_values` builds (distributions.py:1716-1718, utils.py:84-93).  Lists and dicts of
the caller are cells of a heap.
-/

namespace Verif

variable {K : Type} [Field K] [LinearOrder K]

/-- The contents of one of the caller's lists or dicts. -/
inductive Cell (K : Type) where
  /-- a list of faces; `none` is anything that is not an `int` -/
  | faces (l : List IntArg)
  /-- a list of items for `discrete` -/
  | items (l : List (VItem K (Scalar K)))
  /-- a dict of items and weights -/
  | dict (l : List (Scalar K × Option K))

/-- The caller's lists and dicts. -/
abbrev Cells (K : Type) := ℕ → Cell K

/-- The caller changes lists and dicts: any sequence of writes. -/
def runWrites (ws : List (ℕ × Cell K)) (h : Cells K) : Cells K :=
  ws.foldl (fun h w c => if c = w.1 then w.2 else h c) h

/-- The faces in a cell. -/
def Cell.toFaces : Cell K → List IntArg
  | .faces l => l
  | _ => []

/-- What `discrete` sees in a cell. -/
def Cell.toItems : Cell K → VArg K (Scalar K)
  | .faces l => .list (l.map fun v => .plain (match v with | some z => .int z | none => .none))
  | .items l => .list l
  | .dict l => .dict l

/-- A call of a constructor that takes a list or a dict. -/
inductive BuildCall (K : Type) where
  /-- `die(sides)` -/
  | die (sides : IntArg)
  /-- `die(sides, explode_on=v)` -/
  | dieOne (sides : IntArg) (v : IntArg)
  /-- `die(sides, explode_on=cell)` -/
  | dieList (sides : IntArg) (cell : ℕ)
  /-- `discrete(cell)` -/
  | discrete (cell : ℕ)
  /-- `discrete(array)`: a numpy array is turned into a new list (distributions.py:1230) -/
  | discreteArray (vs : List (VItem K (Scalar K)))
  /-- `mixture(cell)`: a list or dict of plain numbers -/
  | mixture (cell : ℕ)

/-- The cell that the call passes. -/
def BuildCall.cell? : BuildCall K → Option ℕ
  | .dieList _ c => some c
  | .discrete c => some c
  | .mixture c => some c
  | _ => none

/-- What the new object keeps. -/
inductive Kept (K : Type) where
  | dieOwn (d : DieSpec)
  | dieShared (sides : ℤ) (cell : ℕ)
  | itemsOwn (items : VArg K (Scalar K))
  | itemsShared (cell : ℕ)
  | mixture (ws : List K) (vs : List (Scalar K))

/-- The values of processed items. -/
def keptValues (vs : List (VItem K (Scalar K))) : List (Scalar K) := vs.filterMap VItem.plain?

/-- Building the object. -/
def build (h : Cells K) : BuildCall K → Except PyErr (Kept K)
  | .die sides =>                                                     -- dice.py:13-35
    match dieInit sides .absent with
    | .error e => .error e
    | .ok d => .ok (.dieOwn d)
  | .dieOne sides v =>                                                -- dice.py:27-28: a new list
    match dieInit sides (.one v) with
    | .error e => .error e
    | .ok d => .ok (.dieOwn d)
  | .dieList sides c =>                                               -- dice.py:35: the caller's list
    match dieInit sides (.list (h c).toFaces) with
    | .error e => .error e
    | .ok d => .ok (.dieShared d.sides c)
  | .discrete c =>                                                    -- distributions.py:1225-1230
    match construct (S := Unit) (.discrete (h c).toItems) with
    | .error e => .error e
    | .ok _ => .ok (.itemsShared c)
  | .discreteArray vs =>
    match construct (S := Unit) (.discrete (.ndarray vs)) with
    | .error e => .error e
    | .ok _ => .ok (.itemsOwn (.list vs))
  | .mixture c =>                                                     -- distributions.py:1714-1721
    match (processWeightsValues (K := K) (fun _ => false) .absent .absent (h c).toItems false).result with
    | .error e => .error e
    | .ok (ws, vs) => .ok (.mixture ws (keptValues vs))

/-- The distribution that the object stands for when it is sampled with the given lists: a die explodes on
the faces that are then in its list (samplers.py:680-681; elements that are not integers equal no face),
`discrete` reads its items at every call (samplers.py:609, 1143-1149). -/
def Kept.now {S : Type} (h : Cells K) : Kept K → Obj S K
  | .dieOwn d => .leaf (.die d) none none
  | .dieShared sides c => .leaf (.die ⟨sides, some ((h c).toFaces.filterMap id)⟩) none none
  | .itemsOwn items => .leaf (.categorical items) none none
  | .itemsShared c => .leaf (.categorical (h c).toItems) none none
  | .mixture ws vs => .mix vs.length (fun i => .lit vs[i]) ws none none

end Verif
