import Verif.Props.CoresBounds

/-! # C107: the bounds of the call itself, with any caches, files and cores -/

namespace Verif

variable {σ K : Type} [Field K] [LinearOrder K] [FloorRing K] [IsStrictOrderedRing K]

/-- **C107 (the call's own bounds).** Whatever the memory and the files hold, whatever was left over by other
processes and on however many cores: every value a call returns is at most its `rclip`, and at least its `lclip`
unless the bounds of the call and of the distribution contradict each other. -/
theorem C107_call (E : Env σ K) (key : Obj (St σ K) K → String) (o : CacheOpts) (d : Obj (St σ K) K) (n : ℕ)
    (lc rc : Option (Scalar K)) (c c' : CSt σ K) (z : Samples K)
    (h : cachedSample E key o d n lc rc c = (.ok z, c')) (v : Scalar K) (hv : v ∈ z.toList) :
    (∀ u, rc = some u → ScalarLe v u) ∧ (BoundsInOrder d lc rc → ∀ l, lc = some l → ScalarLe l v) := by
  obtain ⟨hn, c1, h1, -⟩ := cachedSample_ok h
  rcases obtain_cases E o (key d) d n lc rc c with ⟨e, h2⟩ | ⟨w, -, -, h2⟩ | h2
  · rw [h2] at h1; cases h1
  · rw [h2] at h1
    simp only [Prod.mk.injEq] at h1
    have hf := applyClips_clampOf h1.1
    obtain ⟨i, hi, rfl⟩ := List.mem_iff_getElem.1 hv
    have hx := hf.length_eq
    have := clampOf_bounds (hf.get (i := i) (by omega) hi)
    refine ⟨fun u hu => this.1 u (by simp [hu]), fun ho l hl => this.2 (fun l hl u hu => ho l ?_ u ?_) l (by simp [hl])⟩
    · exact List.mem_append.2 (Or.inl hl)
    · exact List.mem_append.2 (Or.inl hu)
  · rw [h2, freshDraw] at h1
    simp only [Prod.mk.injEq] at h1
    obtain ⟨m', h3⟩ : ∃ m', sampleCores E o.sched o.cores d n lc rc c.inner = (.ok z, m') := ⟨_, Prod.ext h1.1 rfl⟩
    by_cases hc : 2 ≤ o.cores
    · have := C148_call E o.sched o.cores hc d n lc rc _ _ z h3 v hv
      refine ⟨this.1, fun ho => this.2 fun l u hl hu => ho l ?_ u ?_⟩
      · exact List.mem_append.2 (Or.inl (by simp [hl]))
      · exact List.mem_append.2 (Or.inl (by simp [hu]))
    · have h4 := (sampleCores_one E o.sched o.cores (by omega) d n (by omega) lc rc c.inner).1
      rw [h3] at h4
      have := C12_bounds E d n lc rc c.inner.inner _ z (Prod.ext h4.symm rfl) v hv
      exact ⟨fun u hu => this.1 u (List.mem_append.2 (Or.inl (by simp [hu]))),
        fun ho l hl => this.2 ho l (List.mem_append.2 (Or.inl (by simp [hl])))⟩

/-- A case: the memory holds -3 and 5 for the distribution; a call with `lclip=0, rclip=4` gets 0 and 4. -/
example : (cachedSample demoEnv (fun _ => "k") { memcache := true, cores := 2 } (.leaf (.normal 0 1) none none) 2
    (some (.int 0)) (some (.int 4))
    ⟨⟨demoSt 0, fun _ => none⟩, fun _ => some (.arr [.int (-3), .int 5]), fun _ => none⟩).1 =
      .ok (.arr [.int 0, .int 4]) := by decide +kernel

end Verif
