import Verif.Props.Multicore

/-! # C26: batches of one worker process -/

namespace Verif

variable {σ K : Type} [Field K] [LinearOrder K] [FloorRing K]

/-- The core numbers that process `p` handles, in order. -/
def Spec.coresOf (sched : Sched) (p : ℕ) : List ℕ := (sched.filter fun t => t.1 = p).map Prod.snd

open Spec

/-- If every task left its file, each process ran its tasks one after another. -/
theorem runWorkers_streams (E : Env σ K) (d : Obj (St σ K) K) (cuts : List ℕ) (lc rc : Option (Scalar K))
    (sched : Sched) : ∀ (procs : ℕ → St σ K) (tmp : ℕ → Option (Samples K)), (sched.map Prod.snd).Nodup →
      (∀ i ∈ sched.map Prod.snd, tmp i = none) →
      (∀ i ∈ sched.map Prod.snd, ∃ b, runWorkers E d cuts lc rc sched procs tmp i = some b) →
      ∀ p, ∃ part s', SM.Runs (fun i => onCopy (sampleObj E d (cuts.getD i 0) lc rc)) (procs p) (coresOf sched p) part s' ∧
        List.Forall₂ (fun i b => runWorkers E d cuts lc rc sched procs tmp i = some b) (coresOf sched p) part := by
  induction sched with
  | nil => intro procs tmp _ _ _ p; exact ⟨[], _, .nil _, .nil⟩
  | cons a rest ih =>
    obtain ⟨q, core⟩ := a
    intro procs tmp hnd hclean hall p
    simp only [List.map_cons, List.nodup_cons] at hnd
    cases hs : onCopy (sampleObj E d (cuts.getD core 0) lc rc) (procs q) with
    | mk r s1 =>
      have hcore := runWorkers_other E d cuts lc rc rest
        (workerStep E d cuts lc rc procs tmp q core).1 (workerStep E d cuts lc rc procs tmp q core).2 core hnd.1
      cases r with
      | error e =>
        exfalso
        obtain ⟨b, hb⟩ := hall core (by simp)
        rw [runWorkers] at hb
        rw [hcore] at hb
        simp only [workerStep, hs] at hb
        rw [hclean core (by simp)] at hb
        cases hb
      | ok z =>
        have hstep : workerStep E d cuts lc rc procs tmp q core
            = (fun r => if r = q then s1 else procs r, fun i => if i = core then some z else tmp i) := by
          simp only [workerStep, hs]
        have hrun : runWorkers E d cuts lc rc ((q, core) :: rest) procs tmp
            = runWorkers E d cuts lc rc rest (fun r => if r = q then s1 else procs r)
                (fun i => if i = core then some z else tmp i) := by
          rw [runWorkers, hstep]
        rw [hstep] at hcore
        rw [hrun] at hall ⊢
        obtain ⟨part, s', h1, h2⟩ := ih (fun r => if r = q then s1 else procs r)
          (fun i => if i = core then some z else tmp i) hnd.2
          (fun i hi => by
            have : i ≠ core := fun h => hnd.1 (h ▸ hi)
            simp only [this, if_false]
            exact hclean i (by simp only [List.map_cons, List.mem_cons, hi, or_true]))
          (fun i hi => hall i (by simp only [List.map_cons, List.mem_cons, hi, or_true])) p
        by_cases hp : p = q
        · subst hp
          have hc : coresOf ((p, core) :: rest) p = core :: coresOf rest p := by
            simp [coresOf]
          rw [hc]
          simp only [if_true] at h1
          exact ⟨z :: part, s', .cons hs h1, .cons (by rw [hcore]; simp) h2⟩
        · have hc : coresOf ((q, core) :: rest) p = coresOf rest p := by
            simp [coresOf, Ne.symm hp]
          rw [hc]
          simp only [hp, if_false] at h1
          exact ⟨part, s', h1, h2⟩

/-- **C26.** What holds of the full property.  After a successful call in a clean directory, the batches that one
worker process drew are consecutive parts of one stream: its first batch starts in the state of the generator before
the call, every further batch in the state the previous one left (each task has its own copy of the samples left over
in correlated distributions, `onCopy`).  No part of the stream is used twice within a
process. -/
theorem C26_one_process_partial (E : Env σ K) (sched : Sched) (cores : ℕ) (hc : 2 ≤ cores)
    (hv : sched.Valid cores) (d : Obj (St σ K) K) (n : ℕ) (lc rc : Option (Scalar K)) (m m' : MSt σ K)
    (hclean : ∀ i, i < cores → m.tmp i = none) (z : Samples K)
    (h : sampleCores E sched cores d n lc rc m = (.ok z, m')) :
    ∃ (cuts : List ℕ) (bs : List (Samples K)), coreCuts n cores = .ok cuts ∧ bs.length = cores ∧
      (Homogeneous (bs.flatMap Samples.toList) →
        applyClips E.powf lc rc (.arr ((bs.flatMap Samples.toList).map asFloat)) = .ok z) ∧
      ∀ p, ∃ part s', SM.Runs (fun i => onCopy (sampleObj E d (cuts.getD i 0) lc rc)) m.inner (coresOf sched p) part s' ∧
        List.Forall₂ (fun i b => bs[i]? = some b) (coresOf sched p) part := by
  obtain ⟨-, cuts, own, bs, h1, h2, h3, h4, -⟩ := multicore_ok hc h
  have hlen := h3.length_eq
  rw [List.length_range] at hlen
  have hnd : (sched.map Prod.snd).Nodup := hv.nodup_iff.2 List.nodup_range
  have hlt : ∀ i ∈ sched.map Prod.snd, i < cores - 1 := fun i hi => List.mem_range.1 (hv.subset hi)
  have hfile : ∀ i ∈ sched.map Prod.snd, ∃ b, bs[i]? = some b ∧
      runWorkers E d cuts lc rc sched (fun _ => m.inner) m.tmp i = some b := by
    intro i hi
    have hi1 := hlt i hi
    have hi2 : i < bs.length := by omega
    have := h3.get (i := i) (by simp; omega) hi2
    simp only [List.get_eq_getElem, List.getElem_range] at this
    rw [if_neg (by omega)] at this
    exact ⟨_, List.getElem?_eq_getElem hi2, this⟩
  refine ⟨cuts, bs, h1, hlen.symm, fun hh => ?_, fun p => ?_⟩
  · rw [concat_homogeneous E.fmt bs hh] at h4
    exact h4
  · obtain ⟨part, s', h5, h6⟩ := runWorkers_streams E d cuts lc rc sched (fun _ => m.inner) m.tmp hnd
      (fun i hi => hclean i (by have := hlt i hi; omega))
      (fun i hi => by obtain ⟨b, -, hb⟩ := hfile i hi; exact ⟨b, hb⟩) p
    refine ⟨part, s', h5, forall₂_imp_mem (fun i hi b hib => ?_) h6⟩
    have hmem : i ∈ sched.map Prod.snd := by
      obtain ⟨t, ht, rfl⟩ := List.mem_map.1 hi
      exact List.mem_map.2 ⟨t, (List.mem_filter.1 ht).1, rfl⟩
    obtain ⟨b', hb1, hb2⟩ := hfile i hmem
    rw [hb2] at hib
    rw [hb1, hib]

/-- Both tasks in one process: the second batch (core 0) continues where the first (core 1) stopped; the parent's
batch (core 2) repeats the first. -/
example : coresOf [(0, 1), (0, 0)] 0 = [1, 0] ∧ Sched.Valid [(0, 1), (0, 0)] 3 ∧
    (sampleCores demoEnv [(0, 1), (0, 0)] 3 (.leaf (.uniform 0 1) none none) 6 none none
      ⟨demoSt 1, fun _ => none⟩).1
    = .ok (.arr [.flt (9 / 10), .flt (1 / 5), .flt (3 / 10), .flt (3 / 5), .flt (3 / 10), .flt (3 / 5)]) := by
  refine ⟨by decide, ?_, by decide +kernel⟩
  unfold Sched.Valid; decide

end Verif
