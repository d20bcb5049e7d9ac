import Verif.Model.CacheFileSteps

/-!
# Schedules of several processes that write one cache file
-/

namespace Verif.Spec

/-- What process `p` does in a schedule. -/
def stepsOf {α : Type} (p : ℕ) (tr : List (ℕ × CacheStep α)) : List (CacheStep α) :=
  (tr.filter fun e => e.1 == p).map Prod.snd

/-- A schedule in which exactly the processes in `ps` dump, process `p` the array `xs p`, each of them to the
end, in any interleaving. -/
structure AllComplete {α : Type} (ps : List ℕ) (xs : ℕ → List α) (tr : List (ℕ × CacheStep α)) : Prop where
  who : ∀ e ∈ tr, e.1 ∈ ps
  does : ∀ p ∈ ps, stepsOf p tr = dumpSteps (xs p)

/-- A schedule at any moment: some of the processes may be in the middle of their dump, or have crashed
there. -/
structure Running {α : Type} (ps : List ℕ) (xs : ℕ → List α) (tr : List (ℕ × CacheStep α)) : Prop where
  who : ∀ e ∈ tr, e.1 ∈ ps
  does : ∀ p ∈ ps, stepsOf p tr <+: dumpSteps (xs p)

/-- Calls one after the other on the same file; what each of them returned, and the file at the end. -/
def runCalls {α : Type} [Zero α] : List (Bool × Bool × Bool × List α) → Option (List (Block α)) →
    List (Except PyErr (List α)) × Option (List (Block α))
  | [], f => ([], f)
  | (load, dump, reload, fresh) :: rest, f =>
    let r := fileCall load dump reload fresh f
    let rs := runCalls rest r.2
    (r.1 :: rs.1, rs.2)

end Verif.Spec
