import Verif.Model.Bayesnet

/-!
# Specification vocabulary for `bayesnet`
-/

namespace Verif

variable {S α ρ K : Type}

/-- What the caller sees: lists by their contents. -/
inductive Answer (α ρ K : Type) where
  | nothing
  | events (l : List α)
  | values (vs : List (Scalar K))
  | mean (x : K)
  | reduced (x : ρ)

/-- A result as the caller sees it in the state `s`. -/
def BResult.seen (s : BSt S α) : BResult ρ K → Answer α ρ K
  | .pyNone => .nothing
  | .listRef r => .events (s.lists r)
  | .values vs => .values vs
  | .mean x => .mean x
  | .reduced x => .reduced x

/-- The arithmetic mean. -/
def average [Field K] (xs : List K) : K := xs.sum / xs.length

/-- The answer to a query about a given list of events, as a pure function: keep the events that meet
the condition; it is an error if there are none; then evaluate the query. -/
def answerAbout [Field K] (q : Query α ρ K) (cond : Option (α → Except PyErr Bool)) (l : List α) :
    Except PyErr (Answer α ρ K) := do
  let kept ← match cond with
    | none => .ok l
    | some c => filterExcept c l
  match kept with
  | [] => .error .valueError
  | _ =>
    match q with
    | .events => .ok (.events kept)
    | .reduceEvents r => do .ok (.reduced (← r kept))
    | .findRaw f => do .ok (.values (← mapExcept f kept))
    | .findReduce f (some r) => do .ok (.reduced (← r (← mapExcept f kept)))
    | .findReduce f none => do .ok (.mean (average (← mapExcept meanValue (← mapExcept f kept))))

/-- The event functions never raise and every event can be written to a file. -/
def BEnv.Total (E : BEnv S α) : Prop :=
  (∀ f s, ∃ a s', E.event f s = (.ok a, s')) ∧ ∀ a, ∃ b, E.codec a = some b

/-- Steps that leave no temporary files and change no lists: single-core calls; multi-core calls, if no
event function ever raises; restarts and crashes during the writing of a cache file. -/
def BOp.Tame (E : BEnv S α) : BOp α ρ K → Prop
  | .call o _ _ _ _ => o.cores ≤ 1 ∨ o.sched.Valid o.cores ∧ E.Total
  | .mutate _ _ => False
  | .restart => True
  | .truncate _ => True

/-- The state of a fresh process in a directory without any cache or temporary files. -/
def BSt.fresh (i : S) : BSt S α := ⟨i, fun _ => [], 0, fun _ => none, fun _ => none, fun _ => none⟩

/-- All lists that the memory cache refers to exist. -/
def BSt.WF (s : BSt S α) : Prop := ∀ k e, s.mem k = some e → e.ref < s.next

/-- The memory entry of the event function `fn` may be replaced: by a reload or a restart. -/
def BOp.Replaces (fn : Option ℕ) : BOp α ρ K → Prop
  | .call o g _ _ _ => g = fn ∧ o.reload = true ∧ o.saves = true
  | .mutate _ _ => False
  | .restart => True
  | .truncate _ => False

/-- The step changes a list in place. -/
def BOp.Mutates : BOp α ρ K → Prop
  | .mutate _ _ => True
  | _ => False

/-- The step writes the cache file `f`. -/
def BOp.Writes (f : String) : BOp α ρ K → Prop
  | .call o _ _ _ _ => truthyName o.dump = some f
  | .truncate g => g = f
  | _ => False

end Verif
