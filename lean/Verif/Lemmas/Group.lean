import Verif.Lemmas.Shape

/-! # Objects that do not touch a correlation group -/

namespace Verif

variable {σ K : Type}

/-- A computation that leaves the left-over samples of group `g` alone, even if it raises. -/
def SM.Keeps {α : Type} (g : ℕ) (m : SM σ K α) : Prop := ∀ s, (m s).2.left g = s.left g

namespace SM.Keeps

variable {α β : Type} {g : ℕ}

theorem pure (a : α) : SM.Keeps (σ := σ) (K := K) g (SM.pure a) := fun _ => rfl

theorem throw (e : PyErr) : SM.Keeps (σ := σ) (K := K) g (SM.throw (α := α) e) := fun _ => rfl

theorem lift (r : Except PyErr α) : SM.Keeps (σ := σ) (K := K) g (SM.lift r) := fun _ => rfl

theorem bind {m : SM σ K α} {f : α → SM σ K β} (hm : SM.Keeps g m) (hf : ∀ a, SM.Keeps g (f a)) :
    SM.Keeps g (SM.bind m f) := by
  intro s
  unfold SM.bind
  have h := hm s
  cases hms : m s with
  | mk r s1 =>
    rw [hms] at h
    cases r with
    | error e => exact h
    | ok a => exact (hf a s1).trans h

theorem mapL {f : α → SM σ K β} (hf : ∀ a, SM.Keeps g (f a)) :
    ∀ as, SM.Keeps g (SM.mapL f as)
  | [] => pure _
  | a :: as => bind (hf a) fun _ => bind (mapL hf as) fun _ => pure _

theorem replicateL {m : SM σ K α} (hm : SM.Keeps g m) : ∀ n, SM.Keeps g (SM.replicateL m n)
  | 0 => pure _
  | n + 1 => bind hm fun _ => bind (replicateL hm n) fun _ => pure _

end SM.Keeps

/-- The object does not mention group `g`; Python functions in it neither sample nor modify it. -/
inductive Obj.Avoids (g : ℕ) : Obj (St σ K) K → Prop
  | lit (v : Scalar K) : Obj.Avoids g (.lit v)
  | call {exn : St σ K → Option PyErr} {ret : St σ K → Obj (St σ K) K} {next : St σ K → St σ K}
      (hn : ∀ s, (next s).left g = s.left g) (hr : ∀ s, Obj.Avoids g (ret s)) :
      Obj.Avoids g (.call exn ret next)
  | leaf (l : Leaf K) (lc rc : Option (Scalar K)) : Obj.Avoids g (.leaf l lc rc)
  | mix {k : ℕ} {ds : Fin k → Obj (St σ K) K} {ws : List K} {lc rc : Option (Scalar K)}
      (h : ∀ i, Obj.Avoids g (ds i)) : Obj.Avoids g (.mix k ds ws lc rc)
  | un {f : UnFn} {left : Obj (St σ K) K} (h : Obj.Avoids g left) : Obj.Avoids g (.un f left)
  | bin {f : BinFn} {left right : Obj (St σ K) K} (h1 : Obj.Avoids g left)
      (h2 : Obj.Avoids g right) : Obj.Avoids g (.bin f left right)
  | userUn {isDist : Samples K → Bool} {val : Samples K → Except PyErr (Samples K)}
      {d : Samples K → Obj (St σ K) K} {left : Obj (St σ K) K} (h1 : Obj.Avoids g left)
      (h2 : ∀ x, Obj.Avoids g (d x)) : Obj.Avoids g (.userUn isDist val d left)
  | userBin {isDist : Samples K → Samples K → Bool}
      {val : Samples K → Samples K → Except PyErr (Samples K)}
      {d : Samples K → Samples K → Obj (St σ K) K} {left right : Obj (St σ K) K}
      (h1 : Obj.Avoids g left) (h2 : Obj.Avoids g right) (h3 : ∀ x y, Obj.Avoids g (d x y)) :
      Obj.Avoids g (.userBin isDist val d left right)
  | corr {g' m : ℕ} {members : Fin m → Obj (St σ K) K} {i : Fin m} (hg : g' ≠ g)
      (h : ∀ j, Obj.Avoids g (members j)) : Obj.Avoids g (.corr g' m members i)

variable [Field K] [LinearOrder K] [FloorRing K]

theorem drawSM_keeps (g : ℕ) (E : Env σ K) (p : Prim K) (n : ℕ) : SM.Keeps g (drawSM E p n) := by
  intro s
  rfl

theorem drawSimple_keeps (g : ℕ) (E : Env σ K) (p : Prim K) (n : ℕ) :
    SM.Keeps g (drawSimple E p n) :=
  .bind (drawSM_keeps g E p n) fun _ => .pure _

theorem drawInt_keeps (g : ℕ) (E : Env σ K) (a b : ℤ) : SM.Keeps g (drawInt E a b) :=
  .bind (drawSM_keeps g E _ 1) fun xs s => by
    split <;> rfl

theorem mixtureRun_keeps {ι : Type} (g : ℕ) (E : Env σ K) {comp : ι → ℕ → SM σ K (Samples K)}
    (hc : ∀ i n, SM.Keeps g (comp i n)) (ws : List K) (vals : List ι) (n : ℕ) :
    SM.Keeps g (mixtureRun E comp ws vals n) := by
  have hone : ∀ ws vals, SM.Keeps g (mixtureOne E comp ws vals) := fun ws vals =>
    .bind (drawSM_keeps g E _ 1) fun us s => by
      split
      · split
        · exact hc _ _ s
        · rfl
      · rfl
  intro s
  unfold mixtureRun
  split
  · rfl
  · split
    · exact hc _ _ s
    · split
      · exact SM.Keeps.bind (.mapL (fun i => hc i n) _) (fun _ => .bind (drawSM_keeps g E _ n)
          fun _ => .lift _) s
      · refine SM.Keeps.bind (.replicateL (hone _ _) n) (fun ss s => ?_) s
        split <;> rfl

theorem explodeLoop_keeps (g : ℕ) {draw : SM σ K ℤ} (hd : SM.Keeps g draw) (ex : List ℤ) :
    ∀ fuel roll total, SM.Keeps g (explodeLoop draw ex fuel roll total) := by
  intro fuel
  induction fuel with
  | zero =>
    intro roll total s
    rw [explodeLoop.eq_def draw ex]
    dsimp only
    split <;> rfl
  | succ fuel ih =>
    intro roll total s
    rw [explodeLoop.eq_def draw ex]
    dsimp only
    split
    · have h := hd s
      cases hm : draw s with
      | mk r s1 =>
        rw [hm] at h
        cases r with
        | error e => exact h
        | ok z => exact (ih z (total + z) s1).trans h
    · rfl

theorem singleRoll_keeps (g : ℕ) {draw : SM σ K ℤ} (hd : SM.Keeps g draw) (ex : Option (List ℤ))
    (fuel : ℕ) : SM.Keeps g (singleRoll draw ex fuel) := by
  intro s
  unfold singleRoll
  have h := hd s
  cases hm : draw s with
  | mk r s1 =>
    rw [hm] at h
    cases r with
    | error e => exact h
    | ok z =>
      cases ex with
      | none => exact h
      | some l => exact (explodeLoop_keeps g hd l fuel z z s1).trans h

theorem tInterval_keeps (g : ℕ) (E : Env σ K) (low high t cred : K) (n : ℕ) :
    SM.Keeps g (tInterval E low high t cred n) :=
  .bind (drawSimple_keeps g E _ n) fun _ => .bind (drawSimple_keeps g E _ n) fun _ => .lift _

theorem leafSample_keeps (g : ℕ) (E : Env σ K) (l : Leaf K) (n : ℕ) :
    SM.Keeps g (leafSample E l n) := by
  cases l <;> unfold leafSample
  case const => exact .pure _
  case categorical => exact .bind (.lift _) fun _ => mixtureRun_keeps g E (fun _ _ => .pure _) _ _ n
  case invlognormal => exact .bind (drawSM_keeps g E _ n) fun _ => .lift _
  case bernoulli => exact .bind (drawSM_keeps g E _ n) fun _ => .lift _
  case pareto => exact .bind (drawSM_keeps g E _ n) fun _ => .lift _
  case pert => exact .bind (drawSimple_keeps g E _ n) fun _ => .lift _
  case tdist x y t cred =>
    dsimp only
    split
    · exact .bind (drawSM_keeps g E _ n) fun _ => .pure _
    · split
      · exact .throw _
      · split
        · exact .pure _
        · exact tInterval_keeps g E _ _ _ _ n
    · exact .throw _
  case logtdist x y t cred =>
    dsimp only
    split
    · exact .bind (drawSM_keeps g E _ 1) fun _ => .lift _
    · split
      · exact .throw _
      · split
        · exact .throw _
        · split
          · exact .pure _
          · exact .bind (tInterval_keeps g E _ _ _ _ n) fun _ => .lift _
    · exact .throw _
  case die => exact .bind (.replicateL (fun s => singleRoll_keeps g (drawInt_keeps g E _ _) _ _ s) n) fun _ => .pure _
  case coin => exact .bind (drawSM_keeps g E _ n) fun _ => .pure _
  all_goals exact drawSimple_keeps g E _ n

theorem withClips_keeps {g : ℕ} (E : Env σ K) (own : Option (Scalar K) × Option (Scalar K))
    {raw : ℕ → SM σ K (Samples K)} (h : ∀ n, SM.Keeps g (raw n)) (n : ℕ)
    (lc rc : Option (Scalar K)) : SM.Keeps g (withClips E own raw n lc rc) := by
  unfold withClips
  split
  · exact .throw _
  · exact .bind (.lift _) fun _ => .bind (.lift _) fun _ => .bind (h n) fun _ => .lift _

/-- Sampling an object that avoids group `g` leaves that group's left-over samples alone. -/
theorem rawObj_keeps {g : ℕ} (E : Env σ K) {d : Obj (St σ K) K} (h : d.Avoids g) :
    ∀ n, SM.Keeps g (rawObj E d n) := by
  induction h with
  | lit v => intro n; exact .pure _
  | call hn _ ih =>
    intro n
    unfold rawObj
    refine .bind (.replicateL (fun s => ?_) n) fun states => .bind (.mapL (fun s => ?_) _) fun _ => .lift _
    · unfold callOnce
      split
      · exact hn s
      · exact hn s
    · split
      · exact .pure _
      · exact withClips_keeps E _ (ih s) 1 none none
  | leaf l lc rc => intro n; unfold rawObj; exact leafSample_keeps g E l n
  | mix _ ih =>
    intro n
    unfold rawObj
    exact mixtureRun_keeps g E (fun i m => withClips_keeps E _ (ih i) m none none) _ _ n
  | un _ ih =>
    intro n
    unfold rawObj
    exact .bind (withClips_keeps E _ ih n none none) fun _ => .lift _
  | bin _ _ ih1 ih2 =>
    intro n
    unfold rawObj
    exact .bind (withClips_keeps E _ ih1 n none none) fun _ =>
      .bind (withClips_keeps E _ ih2 n none none) fun _ => .lift _
  | userUn _ _ ih1 ih2 =>
    intro n
    unfold rawObj
    refine .bind (withClips_keeps E _ ih1 n none none) fun x => ?_
    split
    · exact withClips_keeps E _ (ih2 x) n none none
    · exact .lift _
  | userBin _ _ _ ih1 ih2 ih3 =>
    intro n
    unfold rawObj
    refine .bind (withClips_keeps E _ ih1 n none none) fun x =>
      .bind (withClips_keeps E _ ih2 n none none) fun y => ?_
    split
    · exact withClips_keeps E _ (ih3 x y) n none none
    · exact .lift _
  | corr hg _ ih =>
    intro n
    unfold rawObj
    refine .bind (fun s => ?_) fun kept s => ?_
    · unfold takeLeft
      split
      · rfl
      · funext j
        dsimp only
        rw [if_neg (fun hc => hg hc.1.symm)]
    · split
      · rfl
      · refine SM.Keeps.bind (.mapL (fun j => .bind (withClips_keeps E _ (ih j) n none none)
          fun _ => .lift _) _) (fun cols => .bind (.lift _) fun cols' s => ?_) s
        unfold storeOthers
        split
        · rfl
        · funext j
          dsimp only
          rw [if_neg (fun hc => hg hc.1.symm)]

theorem sampleObj_keeps {g : ℕ} (E : Env σ K) {d : Obj (St σ K) K} (h : d.Avoids g) (n : ℕ)
    (lc rc : Option (Scalar K)) : SM.Keeps g (sampleObj E d n lc rc) :=
  withClips_keeps E _ (rawObj_keeps E h) n lc rc

end Verif
