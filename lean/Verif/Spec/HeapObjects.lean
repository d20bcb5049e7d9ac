import Verif.Model.HeapSample

/-!
# Specification for C131: what an object on the heap stands for
-/

namespace Verif.Spec

open Verif

variable {σ : Type}

/-- Every object that a group lists as a member has that group as its own. -/
def PointsBack (H : DHeap HPay) : Prop :=
  ∀ (g : ℕ) (G : GNode), H.groups[g]? = some G → ∀ b ∈ G.members, ∃ nd : DNode HPay,
    H.nodes[b]? = some nd ∧ nd.group = some g

/-- Every object that a group lists as a member has that group as its own, and is listed once. -/
def WellLinked (H : DHeap HPay) : Prop :=
  ∀ (g : ℕ) (G : GNode), H.groups[g]? = some G → G.members.Nodup ∧
    ∀ b ∈ G.members, ∃ nd : DNode HPay, H.nodes[b]? = some nd ∧ nd.group = some g

/-- The group of an object exists. -/
def NoDangling (H : DHeap HPay) : Prop :=
  ∀ (a : ℕ) (nd : DNode HPay) (g : ℕ), H.nodes[a]? = some nd → nd.group = some g → g < H.groups.length

/-- The heaps a program can build: from nothing, by making new distributions and by calls of `correlate`,
successful or not.  With `distinct` no call is given a variable twice. -/
inductive Program (distinct : Prop) : DHeap HPay → Prop
  | start : Program distinct ⟨[], []⟩
  | make {H : DHeap HPay} (h : Program distinct H) (p : HPay) (kids : List ℕ) :
      Program distinct ⟨H.nodes ++ [⟨p, kids, none⟩], H.groups⟩
  | corr {H : DHeap HPay} (h : Program distinct H) (vars : List ℕ) (c : CorrArg) (tol : Option ℝ) (mu : ℕ)
      (hd : distinct → vars.Nodup) : Program distinct (correlate H vars c tol mu).2

/-- The object at address `a` can be written out as the tree `d`: following references ends.  With
`corr = false` the group of the object itself is disregarded. -/
inductive Unfolds (H : DHeap HPay) : Bool → ℕ → Obj (St σ ℝ) ℝ → Prop
  | leaf {corr : Bool} {a : ℕ} {nd : DNode HPay} {l : Leaf ℝ} {lc rc : Option (Scalar ℝ)}
      (hnd : H.nodes[a]? = some nd) (hp : nd.payload = .leaf l lc rc) (hg : corr = false ∨ nd.group = none) :
      Unfolds H corr a (.leaf l lc rc)
  | mix {corr : Bool} {a k : ℕ} {nd : DNode HPay} {ws : List ℝ} {lc rc : Option (Scalar ℝ)}
      {ds : Fin k → Obj (St σ ℝ) ℝ} (hnd : H.nodes[a]? = some nd) (hp : nd.payload = .mix ws lc rc)
      (hg : corr = false ∨ nd.group = none) (hk : nd.kids.length = k)
      (hd : ∀ (i : Fin k) (b : ℕ), nd.kids[i.1]? = some b → Unfolds H true b (ds i)) :
      Unfolds H corr a (.mix k ds ws lc rc)
  | un {corr : Bool} {a l : ℕ} {nd : DNode HPay} {f : UnFn} {d : Obj (St σ ℝ) ℝ}
      (hnd : H.nodes[a]? = some nd) (hp : nd.payload = .un f) (hk : nd.kids = [l])
      (hg : corr = false ∨ nd.group = none) (hl : Unfolds H true l d) : Unfolds H corr a (.un f d)
  | bin {corr : Bool} {a l r : ℕ} {nd : DNode HPay} {f : BinFn} {d e : Obj (St σ ℝ) ℝ}
      (hnd : H.nodes[a]? = some nd) (hp : nd.payload = .bin f) (hk : nd.kids = [l, r])
      (hg : corr = false ∨ nd.group = none) (hl : Unfolds H true l d) (hr : Unfolds H true r e) :
      Unfolds H corr a (.bin f d e)
  | corr {a g k : ℕ} {nd : DNode HPay} {G : GNode} {ms : Fin k → Obj (St σ ℝ) ℝ} {i : Fin k}
      (hnd : H.nodes[a]? = some nd) (hg : nd.group = some g) (hG : H.groups[g]? = some G)
      (hk : G.members.length = k) (hi : G.members[i.1]? = some a)
      (hm : ∀ (j : Fin k) (b : ℕ), G.members[j.1]? = some b → Unfolds H false b (ms j)) :
      Unfolds H true a (.corr g k ms i)

/-- The state of the objects `s` and the state of the trees `t` agree: the same generator, and the samples kept
by a member of a group are those of the object. -/
def SameStore (H : DHeap HPay) (s t : St σ ℝ) : Prop :=
  s.rng = t.rng ∧ ∀ (g : ℕ) (G : GNode) (i b : ℕ), H.groups[g]? = some G → G.members[i]? = some b → t.left g i = s.left 0 b

/-- The correlation step of a group returns as many columns as it is given. -/
def KeepsColumns (X : HEnv σ) : Prop :=
  ∀ info cols cols', X.induce info cols = .ok cols' → cols'.length = cols.length

/-- The environment of the trees: group `g` is correlated as the group object `g` of the heap. -/
noncomputable def treeEnv (X : HEnv σ) (H : DHeap HPay) : Env σ ℝ :=
  { X.E with
    induce := fun g cols =>
      match H.groups[g]? with
      | some G => X.induce G.info cols
      | none => .error .attributeError }

/-- The object `a` has `b` as an operand, directly: it is an arithmetic expression or one of the library's
functions of `b`, and not itself correlated. -/
def OperandOf (H : DHeap HPay) (b a : ℕ) : Prop :=
  ∃ nd : DNode HPay, H.nodes[a]? = some nd ∧ nd.group = none ∧ b ∈ nd.kids ∧
    ((∃ f, nd.payload = .un f) ∨ ∃ f, nd.payload = .bin f)

/-- The object `a` is an expression in which `b` occurs. -/
def BuiltFrom (H : DHeap HPay) (a b : ℕ) : Prop := Relation.TransGen (fun x y => OperandOf H y x) a b

/-- The object `a` refers to `b`: as operand or component, or because `b` is a member of its group. -/
def RefersTo (H : DHeap HPay) (a b : ℕ) : Prop :=
  ∃ nd : DNode HPay, H.nodes[a]? = some nd ∧
    (b ∈ nd.kids ∨ ∃ (g : ℕ) (G : GNode), nd.group = some g ∧ H.groups[g]? = some G ∧ b ∈ G.members)

/-- The objects that `a` is made of, at any depth. -/
def MadeOf (H : DHeap HPay) : ℕ → ℕ → Prop := Relation.TransGen (RefersTo H)

/-- The tree with the groups numbered differently. -/
def relabel {S : Type} (f : ℕ → ℕ) : Obj S ℝ → Obj S ℝ
  | .lit v => .lit v
  | .call exn ret next => .call exn (fun s => relabel f (ret s)) next
  | .leaf l lc rc => .leaf l lc rc
  | .mix k ds ws lc rc => .mix k (fun i => relabel f (ds i)) ws lc rc
  | .un g d => .un g (relabel f d)
  | .bin g d e => .bin g (relabel f d) (relabel f e)
  | .userUn isDist val d left => .userUn isDist val (fun x => relabel f (d x)) (relabel f left)
  | .userBin isDist val d left right =>
    .userBin isDist val (fun x y => relabel f (d x y)) (relabel f left) (relabel f right)
  | .corr g m ms i => .corr (f g) m (fun j => relabel f (ms j)) i

end Verif.Spec
