import Verif.Model.DiscreteDists
import Verif.Lemmas.WeightsMap
import Verif.Props.HashKeys
import Verif.Props.Denote
import Verif.Props.Support
import Verif.Lemmas.DemoGen

/-! # C109: `discrete` over distributions -/

namespace Verif

set_option linter.unusedSectionVars false

variable {σ K : Type} [Field K] [LinearOrder K] [FloorRing K] {ι : Type}

theorem chooseOne_bind (E : Env σ K) (comp : ι → ℕ → SM σ K (Samples K)) (ws : List K) (vals : List ι)
    (st : St σ K) : SM.bind (SM.replicateL (chooseOne E ws vals) 1) (resolveOnly comp) st
      = mixtureSmall E comp ws vals 1 st := by
  simp only [mixtureSmall, SM.replicateL, mixtureOne, chooseOne, SM.bind]
  cases hd : drawSM E (.uniform 0 1) 1 st with
  | mk r s1 =>
    cases r with
    | error e => rfl
    | ok us =>
      rcases us with _ | ⟨u, us⟩
      · rfl
      · rcases us with _ | ⟨u', us⟩
        · cases u with
          | flt u =>
            simp only
            cases hv : vals[pickSmall ws u]? with
            | none => rfl
            | some i =>
              simp only [SM.pure, resolveOnly]
              cases hc : comp i 1 s1 with
              | mk r s2 => cases r <;> rfl
          | _ => rfl
        · cases u <;> rfl

theorem bind_eq_of {α β : Type} {m m' : SM σ K α} {st : St σ K} (h : m st = m' st) (f : α → SM σ K β) :
    SM.bind m f st = SM.bind m' f st := by
  simp only [SM.bind, h]

/-- Sampling the one object chosen is one sample of the mixture. -/
theorem chooseRun_one (E : Env σ K) (comp : ι → ℕ → SM σ K (Samples K)) (ws : List K) (vals : List ι) :
    SM.bind (chooseRun E ws vals 1) (resolveOnly comp) = mixtureRun E comp ws vals 1 := by
  funext st
  have hno : ¬ ((1 : ℕ) > 100) := by decide
  unfold mixtureRun
  cases hp : (processWeightsValues (K := K) (fun _ => false) (.list (ws.map some)) .absent
      (.list (vals.map .plain)) false).result with
  | error e =>
    rw [bind_eq_of (m' := SM.throw e) (by simp only [chooseRun, hp])]
    rfl
  | ok p =>
    obtain ⟨ws', items⟩ := p
    cases hi : items.filterMap VItem.plain? with
    | nil =>
      rw [bind_eq_of (m' := SM.replicateL (chooseOne E ws' []) 1) (by simp only [chooseRun, hp, hi, if_neg hno]),
        chooseOne_bind]
      simp only [hi, if_neg hno]
    | cons a l =>
      cases l with
      | nil =>
        rw [bind_eq_of (m' := SM.pure [a]) (by simp only [chooseRun, hp, hi]; rfl)]
        simp only [hi]
        rfl
      | cons b l =>
        rw [bind_eq_of (m' := SM.replicateL (chooseOne E ws' (a :: b :: l)) 1)
          (by simp only [chooseRun, hp, hi, if_neg hno]), chooseOne_bind]
        simp only [hi, if_neg hno]


/-! ### Other items in the same places -/

theorem filterMap_plain_map {κ : Type} (f : ι → κ) (l : List (VItem K ι)) :
    (l.map (VItem.map f)).filterMap VItem.plain? = (l.filterMap VItem.plain?).map f := by
  induction l with
  | nil => rfl
  | cons a l ih =>
    cases a with
    | plain a => simp [VItem.map, VItem.plain?, ih]
    | pair w a => simpa [VItem.map, VItem.plain?, List.filterMap_cons] using ih

theorem chooseOne_map {κ : Type} (E : Env σ K) (f : ι → κ) (ws : List K) (vals : List ι) :
    chooseOne E ws (vals.map f) = SM.bind (chooseOne E ws vals) fun i => SM.pure (f i) := by
  funext st
  simp only [chooseOne, SM.bind]
  cases drawSM E (.uniform 0 1) 1 st with
  | mk r s1 =>
    cases r with
    | error e => rfl
    | ok us =>
      rcases us with _ | ⟨u, us⟩
      · rfl
      · rcases us with _ | ⟨u', us⟩
        · cases u with
          | flt u =>
            simp only [List.getElem?_map]
            cases vals[pickSmall ws u]? <;> rfl
          | _ => rfl
        · cases u <;> rfl

theorem replicateL_map {α β : Type} (m : SM σ K α) (f : α → β) (n : ℕ) :
    SM.replicateL (SM.bind m fun a => SM.pure (f a)) n
      = SM.bind (SM.replicateL m n) fun l => SM.pure (l.map f) := by
  induction n with
  | zero => rfl
  | succ n ih =>
    funext st
    simp only [SM.replicateL, ih, SM.bind, SM.pure]
    cases m st with
    | mk r s1 =>
      cases r with
      | error e => rfl
      | ok a =>
        simp only
        cases SM.replicateL m n s1 with
        | mk r s2 => cases r <;> rfl

theorem mapExcept_comp {α β γ : Type} {f : α → Except PyErr β} {g : β → γ} (l : List α) :
    mapExcept (fun a => (f a).map g) l = (mapExcept f l).map (List.map g) := by
  induction l with
  | nil => rfl
  | cons a l ih =>
    simp only [mapExcept, ih, bind, Except.bind]
    cases f a with
    | error e => rfl
    | ok b => cases mapExcept f l <;> rfl

theorem chooseLarge_map {κ : Type} (f : ι → κ) (ws : List K) (vals : List ι) :
    chooseLarge ws (vals.map f) = fun u => (chooseLarge ws vals u).map f := by
  funext u
  cases u with
  | flt u =>
    simp only [chooseLarge, List.getElem?_map]
    cases pickLarge ws u with
    | error e => rfl
    | ok i => simp only; cases vals[i]? <;> rfl
  | _ => rfl

variable [IsStrictOrderedRing K]

/-- Replacing the items by others replaces the items chosen, and nothing else. -/
theorem chooseRun_map {κ : Type} (E : Env σ K) (f : ι → κ) (ws : List K) (vals : List ι) (n : ℕ) :
    chooseRun E ws (vals.map f) n = SM.bind (chooseRun E ws vals n) fun l => SM.pure (l.map f) := by
  funext st
  have hmap := process_map (K := K) f (na := fun _ => false) (na' := fun _ => false) (fun _ => rfl)
    (.list (ws.map some)) .absent (.list (vals.map .plain)) false
  have harg : (VArg.list (vals.map (VItem.plain (K := K)))).map f = .list ((vals.map f).map .plain) := by
    simp [VArg.map, VItem.map, Function.comp_def]
  rw [harg] at hmap
  cases hp : (processWeightsValues (K := K) (fun _ => false) (.list (ws.map some)) .absent
      (.list (vals.map .plain)) false).result with
  | error e =>
    rw [hp] at hmap
    rw [bind_eq_of (m' := SM.throw e) (by simp only [chooseRun, hp])]
    simp only [chooseRun, hmap, Except.map]
    rfl
  | ok p =>
    obtain ⟨ws', items⟩ := p
    rw [hp] at hmap
    simp only [Except.map] at hmap
    have hmany : ∀ vals' : List ι, (if n > 100 then SM.bind (drawSM E (.uniform 0 1) n)
          (fun us => SM.lift (mapExcept (chooseLarge ws' (vals'.map f)) us)) st
        else SM.replicateL (chooseOne E ws' (vals'.map f)) n st)
        = SM.bind (fun st => if n > 100 then SM.bind (drawSM E (.uniform 0 1) n)
          (fun us => SM.lift (mapExcept (chooseLarge ws' vals') us)) st
        else SM.replicateL (chooseOne E ws' vals') n st) (fun l => SM.pure (l.map f)) st := by
      intro vals'
      by_cases hn : n > 100
      · simp only [if_pos hn, chooseLarge_map, mapExcept_comp, SM.bind]
        cases drawSM E (.uniform 0 1) n st with
        | mk r s1 =>
          cases r with
          | error e => rfl
          | ok us =>
            simp only [SM.lift]
            cases mapExcept (chooseLarge ws' vals') us <;> rfl
      · simp only [if_neg hn, chooseOne_map, replicateL_map]
    have hf := filterMap_plain_map f items
    cases hi : items.filterMap VItem.plain? with
    | nil =>
      rw [hi] at hf
      rw [bind_eq_of (m' := fun st => if n > 100 then SM.bind (drawSM E (.uniform 0 1) n)
          (fun us => SM.lift (mapExcept (chooseLarge ws' []) us)) st
        else SM.replicateL (chooseOne E ws' []) n st) (by simp only [chooseRun, hp, hi])]
      rw [← hmany]
      simp only [chooseRun, hmap, hf, List.map_nil]
    | cons a l =>
      rw [hi] at hf
      cases l with
      | nil =>
        rw [bind_eq_of (m' := SM.pure (List.replicate n a)) (by simp only [chooseRun, hp, hi])]
        simp only [chooseRun, hmap, hf, List.map_cons, List.map_nil]
        simp [SM.bind, SM.pure]
      | cons b l =>
        rw [bind_eq_of (m' := fun st => if n > 100 then SM.bind (drawSM E (.uniform 0 1) n)
            (fun us => SM.lift (mapExcept (chooseLarge ws' (a :: b :: l)) us)) st
          else SM.replicateL (chooseOne E ws' (a :: b :: l)) n st) (by simp only [chooseRun, hp, hi])]
        rw [← hmany]
        simp only [chooseRun, hmap, hf, List.map_cons]


theorem mixtureRun_map {κ : Type} (E : Env σ K) (comp : κ → ℕ → SM σ K (Samples K)) (f : ι → κ) (ws : List K)
    (vals : List ι) (n : ℕ) :
    mixtureRun E comp ws (vals.map f) n = mixtureRun E (fun i => comp (f i)) ws vals n := by
  funext st
  have hmap := process_map (K := K) f (na := fun _ => false) (na' := fun _ => false) (fun _ => rfl)
    (.list (ws.map some)) .absent (.list (vals.map .plain)) false
  have harg : (VArg.list (vals.map (VItem.plain (K := K)))).map f = .list ((vals.map f).map .plain) := by
    simp [VArg.map, VItem.map, Function.comp_def]
  rw [harg] at hmap
  have hmapL : ∀ (g : κ → SM σ K (Samples K)) (l : List ι), SM.mapL g (l.map f) = SM.mapL (fun i => g (f i)) l := by
    intro g l
    induction l with
    | nil => rfl
    | cons a l ih => simp only [List.map_cons, SM.mapL, ih]
  have hlarge : ∀ ws' (vals' : List ι), mixtureLarge E comp ws' (vals'.map f) n st
      = mixtureLarge E (fun i => comp (f i)) ws' vals' n st := by
    intro ws' vals'
    simp only [mixtureLarge, hmapL]
  have hone : ∀ ws' (vals' : List ι), mixtureOne E comp ws' (vals'.map f)
      = mixtureOne E (fun i => comp (f i)) ws' vals' := by
    intro ws' vals'
    funext st
    simp only [mixtureOne, SM.bind]
    cases drawSM E (.uniform 0 1) 1 st with
    | mk r s1 =>
      cases r with
      | error e => rfl
      | ok us =>
        rcases us with _ | ⟨u, us⟩
        · rfl
        · rcases us with _ | ⟨u', us⟩
          · cases u with
            | flt u =>
              simp only [List.getElem?_map]
              cases vals'[pickSmall ws' u]? <;> rfl
            | _ => rfl
          · cases u <;> rfl
  have hsmall : ∀ ws' (vals' : List ι), mixtureSmall E comp ws' (vals'.map f) n st
      = mixtureSmall E (fun i => comp (f i)) ws' vals' n st := by
    intro ws' vals'
    simp only [mixtureSmall, hone]
  unfold mixtureRun
  rw [hmap]
  cases hp : (processWeightsValues (K := K) (fun _ => false) (.list (ws.map some)) .absent
      (.list (vals.map .plain)) false).result with
  | error e => rfl
  | ok p =>
    obtain ⟨ws', items⟩ := p
    simp only [Except.map, filterMap_plain_map]
    cases hi : items.filterMap VItem.plain? with
    | nil =>
      have h1 := hlarge ws' []
      have h2 := hsmall ws' []
      simp only [List.map_nil] at h1 h2
      simp only [List.map_nil, h1, h2]
    | cons a l =>
      cases l with
      | nil => rfl
      | cons b l =>
        have h1 := hlarge ws' (a :: b :: l)
        have h2 := hsmall ws' (a :: b :: l)
        simp only [List.map_cons] at h1 h2
        simp only [List.map_cons, h1, h2]

/-! ### The number of objects -/

theorem chooseRun_length {E : Env σ K} (hE : E.gen.Lawful) {ws : List K} {vals : List ι} {n : ℕ}
    {st st' : St σ K} {l : List ι} (h : chooseRun E ws vals n st = (.ok l, st')) : l.length = n := by
  unfold chooseRun at h
  split at h
  · exact (SM.throw_ok.1 h).elim
  · split at h
    · obtain ⟨rfl, _⟩ := SM.pure_ok.1 h
      simp
    · split_ifs at h
      · obtain ⟨us, s1, h1, h2⟩ := SM.bind_ok.1 h
        rw [mapExcept_length (SM.lift_ok.1 h2).1, (drawSM_lawful hE h1).1]
      · have := (SM.replicateL_ok.1 h).length
        simpa using this

theorem chooseRun_mem {E : Env σ K} {ws : List K} {vals : List ι} {n : ℕ}
    {st st' : St σ K} {l : List ι} (h : chooseRun E ws vals n st = (.ok l, st')) : ∀ d ∈ l, d ∈ vals := by
  rw [show vals = vals.attach.map Subtype.val by simp, chooseRun_map] at h
  obtain ⟨l', s1, _, h2⟩ := SM.bind_ok.1 h
  obtain ⟨rfl, _⟩ := SM.pure_ok.1 h2
  intro d hd
  obtain ⟨x, _, rfl⟩ := List.mem_map.1 hd
  exact x.2

/-! ### Numbers in the places of the objects -/

theorem npArray_int (fmt : Scalar K → String) (zs : List ℤ) :
    npArray fmt (zs.map Scalar.int) = zs.map Scalar.int := by
  unfold npArray
  rw [List.map_map]
  have hdt : commonDT (zs.map (Scalar.int (K := K))) = .bool ∨ commonDT (zs.map (Scalar.int (K := K))) = .int := by
    unfold commonDT
    have : ∀ d : DT, d = .bool ∨ d = .int →
        (zs.map (Scalar.int (K := K))).foldl (fun d v => d.join v.dt) d = .bool ∨
        (zs.map (Scalar.int (K := K))).foldl (fun d v => d.join v.dt) d = .int := by
      induction zs with
      | nil => exact fun d h => h
      | cons z zs ih =>
        intro d h
        rw [List.map_cons, List.foldl_cons]
        refine ih _ (Or.inr ?_)
        rcases h with rfl | rfl <;> rfl
    exact this _ (Or.inl rfl)
  refine List.map_congr_left fun z _ => ?_
  rcases hdt with h | h <;> simp [h, Scalar.castTo]

theorem mapL_pure {α β : Type} (f : α → β) (l : List α) :
    SM.mapL (fun a => (SM.pure (f a) : SM σ K β)) l = SM.pure (l.map f) := by
  induction l with
  | nil => rfl
  | cons a l ih =>
    funext st
    simp only [SM.mapL, ih, SM.bind, SM.pure, List.map_cons]

/-- A mixture of numbers is the numbers of the places chosen. -/
theorem mixtureRun_numbers {E : Env σ K} (hE : E.gen.Lawful) (c : ι → ℤ) (ws : List K) (vals : List ι) (n : ℕ)
    (st : St σ K) :
    mixtureRun E (fun i m => SM.pure (constSamples (.int (c i)) m)) ws vals n st
      = SM.bind (chooseRun E ws vals n)
          (fun l => SM.pure (Samples.simplify (.arr (l.map fun i => .int (c i))))) st := by
  have hlarge : ∀ ws' (vals' : List ι),
      mixtureLarge E (fun i m => SM.pure (constSamples (.int (c i)) m)) ws' vals' n st
      = SM.bind (SM.bind (drawSM E (.uniform 0 1) n)
          (fun us => SM.lift (mapExcept (chooseLarge ws' vals') us)))
          (fun l => SM.pure (Samples.simplify (.arr (l.map fun i => .int (c i))))) st := by
    intro ws' vals'
    have hpick : ∀ (us : List (Scalar K)) (k : ℕ), k + us.length ≤ n →
        mapExcept (pickValue ws' (vals'.map fun i => constSamples (.int (c i)) n)) (us.zipIdx k)
          = (mapExcept (chooseLarge ws' vals') us).map (List.map fun i => Scalar.int (c i)) := by
      intro us
      induction us with
      | nil => intro k _; rfl
      | cons u us ih =>
        intro k hk
        simp only [List.length_cons] at hk
        have h1 : pickValue ws' (vals'.map fun i => constSamples (.int (c i)) n) (u, k)
            = (chooseLarge ws' vals' u).map fun i => Scalar.int (c i) := by
          cases u with
          | flt u =>
            simp only [pickValue, chooseLarge, List.getElem?_map]
            cases pickLarge ws' u with
            | error e => rfl
            | ok i =>
              simp only
              cases vals'[i]? with
              | none => rfl
              | some a =>
                simp only [Option.map_some, constSamples, toList_simplify]
                rw [List.getElem?_replicate_of_lt (by omega)]
                rfl
          | _ => rfl
        simp only [List.zipIdx_cons, mapExcept, h1, ih (k + 1) (by omega), bind, Except.bind]
        cases chooseLarge ws' vals' u with
        | error e => rfl
        | ok b => cases mapExcept (chooseLarge ws' vals') us <;> rfl
    simp only [mixtureLarge, mapL_pure]
    simp only [SM.bind, SM.pure]
    cases hd : drawSM E (.uniform 0 1) n st with
    | mk r s1 =>
      cases r with
      | error e => rfl
      | ok us =>
        have hlen := (drawSM_lawful hE hd).1
        simp only [SM.lift, bind, Except.bind, hpick us 0 (by omega)]
        cases mapExcept (chooseLarge ws' vals') us with
        | error e => rfl
        | ok l =>
          simp only [Except.map]
          rw [show (l.map fun i => (Scalar.int (c i) : Scalar K)) = (l.map c).map Scalar.int by
            rw [List.map_map]; rfl, npArray_int]
  have hsmall : ∀ ws' (vals' : List ι),
      mixtureSmall E (fun i m => SM.pure (constSamples (.int (c i)) m)) ws' vals' n st
      = SM.bind (SM.replicateL (chooseOne E ws' vals') n)
          (fun l => SM.pure (Samples.simplify (.arr (l.map fun i => .int (c i))))) st := by
    intro ws' vals'
    have hone : mixtureOne E (fun i m => SM.pure (constSamples (.int (c i)) m)) ws' vals'
        = SM.bind (chooseOne E ws' vals') fun i => SM.pure (Samples.scalar (.int (c i))) := by
      funext st
      simp only [mixtureOne, chooseOne, SM.bind]
      cases drawSM E (.uniform 0 1) 1 st with
      | mk r s1 =>
        cases r with
        | error e => rfl
        | ok us =>
          rcases us with _ | ⟨u, us⟩
          · rfl
          · rcases us with _ | ⟨u', us⟩
            · cases u with
              | flt u =>
                simp only
                cases vals'[pickSmall ws' u]? <;> rfl
              | _ => rfl
            · cases u <;> rfl
    simp only [mixtureSmall, hone, replicateL_map]
    simp only [SM.bind]
    cases hr : SM.replicateL (chooseOne E ws' vals') n st with
    | mk r s1 =>
      cases r with
      | error e => rfl
      | ok l =>
        have hg : ∀ l : List ι, gather E (l.map fun i => Samples.scalar (.int (c i)))
            = .ok (Samples.simplify (.arr (l.map fun i => .int (c i)))) := by
          intro l
          have : ∀ g : Samples K → Except PyErr (Scalar K), (∀ v, g (.scalar v) = .ok v) →
              mapExcept g (l.map fun i => Samples.scalar (.int (c i))) = .ok (l.map fun i => .int (c i)) := by
            intro g hg
            induction l with
            | nil => rfl
            | cons a l ih => simp only [List.map_cons, mapExcept, ih, hg, bind, Except.bind]
          unfold gather
          rw [this _ (fun _ => rfl)]
          simp only [bind, Except.bind]
          rw [show (l.map fun i => (Scalar.int (c i) : Scalar K)) = (l.map c).map Scalar.int by
            rw [List.map_map]; rfl, npArray_int]
        simp only [SM.pure]
        rcases l with _ | ⟨a, l⟩
        · simp only [List.map_nil]
          have := hg []
          simp only [List.map_nil] at this
          simp only [SM.lift, this]
        · rcases l with _ | ⟨b, l⟩
          · rfl
          · have := hg (a :: b :: l)
            simp only [List.map_cons] at this
            simp only [List.map_cons, SM.lift, this]
  cases hp : (processWeightsValues (K := K) (fun _ => false) (.list (ws.map some)) .absent
      (.list (vals.map .plain)) false).result with
  | error e =>
    rw [bind_eq_of (m' := SM.throw e) (by simp only [chooseRun, hp])]
    simp only [mixtureRun, hp]
    rfl
  | ok p =>
    obtain ⟨ws', items⟩ := p
    have hmany : ∀ vals' : List ι,
        (if n > 100 then mixtureLarge E (fun i m => SM.pure (constSamples (.int (c i)) m)) ws' vals' n st
          else mixtureSmall E (fun i m => SM.pure (constSamples (.int (c i)) m)) ws' vals' n st)
        = SM.bind (fun st => if n > 100 then SM.bind (drawSM E (.uniform 0 1) n)
          (fun us => SM.lift (mapExcept (chooseLarge ws' vals') us)) st
        else SM.replicateL (chooseOne E ws' vals') n st)
          (fun l => SM.pure (Samples.simplify (.arr (l.map fun i => .int (c i))))) st := by
      intro vals'
      by_cases h : n > 100
      · simp only [if_pos h]; exact hlarge ws' vals'
      · simp only [if_neg h]; exact hsmall ws' vals'
    cases hi : items.filterMap VItem.plain? with
    | nil =>
      rw [bind_eq_of (m' := fun st => if n > 100 then SM.bind (drawSM E (.uniform 0 1) n)
          (fun us => SM.lift (mapExcept (chooseLarge ws' []) us)) st
        else SM.replicateL (chooseOne E ws' []) n st) (by simp only [chooseRun, hp, hi]), ← hmany]
      simp only [mixtureRun, hp, hi]
    | cons a l =>
      cases l with
      | nil =>
        rw [bind_eq_of (m' := SM.pure (List.replicate n a)) (by simp only [chooseRun, hp, hi])]
        simp only [mixtureRun, hp, hi, SM.bind, SM.pure, constSamples, List.map_replicate]
      | cons b l =>
        rw [bind_eq_of (m' := fun st => if n > 100 then SM.bind (drawSM E (.uniform 0 1) n)
            (fun us => SM.lift (mapExcept (chooseLarge ws' (a :: b :: l)) us)) st
          else SM.replicateL (chooseOne E ws' (a :: b :: l)) n st) (by simp only [chooseRun, hp, hi]), ← hmany]
        simp only [mixtureRun, hp, hi]


theorem withClips_free (E : Env σ K) (raw : ℕ → SM σ K (Samples K)) {n : ℕ} (hn : 1 ≤ n) (st : St σ K) :
    withClips E (none, none) raw n none none st = raw n st := by
  unfold withClips
  rw [if_neg (by omega)]
  simp only [combineL, combineR, SM.bind, SM.lift]
  split <;> rename_i heq <;> rw [heq]
  rfl

theorem map_of_forall₂ {α β : Type} {g : β → α} {as : List α} {bs : List β}
    (h : List.Forall₂ (fun a b => g b = a) as bs) : bs.map g = as := by
  induction h with
  | nil => rfl
  | cons h _ ih => simp [h, ih]

/-! ### The property -/

theorem discreteOf_offered {κ : Type} [DecidableEq κ] {key : ι → κ} {arg : VArg K ι} {p : List K × List (VItem K ι)}
    (hp : discreteOf key arg = .ok p) : ∀ a ∈ p.2.filterMap VItem.plain?, a ∈ arg.offered := by
  unfold discreteOf at hp
  split at hp
  · rename_i vs
    split_ifs at hp with hall
    · have hsub : ∀ a ∈ vs.filterMap VItem.plain?, a ∈ (VArg.list vs).offered := by
        intro a ha
        obtain ⟨v, hv, he⟩ := List.mem_filterMap.1 ha
        cases v with
        | plain b =>
          simp only [VItem.plain?, Option.some.injEq] at he
          subst he
          exact List.mem_map.2 ⟨_, hv, rfl⟩
        | pair w b => simp [VItem.plain?] at he
      unfold processDiscreteBy at hp
      split_ifs at hp with hlen
      · intro a ha
        have := process_offered hp a ha
        simp only [VArg.offered, List.map_map, List.mem_map, Function.comp_apply] at this
        obtain ⟨q, hq, rfl⟩ := this
        exact hsub _ (counterBy_mem key _ q hq).1
      · intro a ha
        have := process_offered hp a ha
        simp only [VArg.offered, List.map_map, List.mem_map, Function.comp_apply] at this
        obtain ⟨q, hq, rfl⟩ := this
        exact hsub _ hq
    · exact process_offered hp
  · exact process_offered hp

/-- **C109.** `sample(discrete(items), n)` for items that are distributions, if it succeeds: `n` of the items
themselves, not samples of them. -/
theorem C109_members {κ : Type} [DecidableEq κ] (key : Obj (St σ K) K → κ) {E : Env σ K} (hE : E.gen.Lawful)
    {arg : VArg K (Obj (St σ K) K)} {p : List K × List (VItem K (Obj (St σ K) K))}
    (hp : discreteOf key arg = .ok p)
    {n : ℕ} {st st' : St σ K} {l : List (Obj (St σ K) K)} (h : discreteChoose E p n st = (.ok l, st')) :
    l.length = n ∧ ∀ d ∈ l, d ∈ arg.offered := by
  unfold discreteChoose at h
  split_ifs at h with h0
  · cases h
  · exact ⟨chooseRun_length hE h, fun d hd => discreteOf_offered hp d (chooseRun_mem h d hd)⟩

/-- **C109.** What is chosen does not depend on what the items are: with other items in the same places, the same
places are chosen, and the same random numbers are used up.  In particular no item is sampled. -/
theorem C109_places (E : Env σ K) {ι κ : Type} (f : ι → κ) (ws : List K) (items : List ι) (n : ℕ) (st : St σ K) :
    discreteChoose E (ws, (items.map f).map .plain) n st =
      ((discreteChoose E (ws, items.map .plain) n st).1.map (List.map f),
        (discreteChoose E (ws, items.map .plain) n st).2) := by
  have hpl : ∀ {α : Type} (l : List α), (l.map (VItem.plain (K := K))).filterMap VItem.plain? = l := by
    intro α l
    induction l with
    | nil => rfl
    | cons a l ih => simp [VItem.plain?, ih]
  unfold discreteChoose
  split_ifs with h0
  · rfl
  · simp only [hpl, chooseRun_map, SM.bind]
    cases chooseRun E ws items n st with
    | mk r s => cases r <;> rfl

theorem double_resolve (E : Env σ K) (p : List K × List (VItem K (Obj (St σ K) K))) :
    doubleResolve E p = sampleObj E (mixtureObj p) 1 none none := by
  funext st
  have h1 : sampleObj E (mixtureObj p) 1 none none st = mixtureRun E (fun d n => sampleObj E d n none none) p.1
      (p.2.filterMap VItem.plain?) 1 st := by
    have hl : ∀ l : List (Obj (St σ K) K), (List.finRange l.length).map (fun i => l[i]) = l := by
      intro l
      rw [← List.ofFn_eq_map]
      exact List.ofFn_getElem
    conv_rhs => rw [← hl (p.2.filterMap VItem.plain?), mixtureRun_map]
    exact withClips_free E _ le_rfl st
  rw [h1, ← chooseRun_one]
  rfl

/-- **C109.** `~~discrete(items)` is `~mixture(items)`: the same value or the same error, from the same random
numbers, for items given as a dict, as pairs with weights, or as a list of fewer than 100. -/
theorem C109_double_resolve {κ : Type} [DecidableEq κ] (key : Obj (St σ K) K → κ) (E : Env σ K)
    (arg : VArg K (Obj (St σ K) K))
    (harg : (∃ entries, arg = .dict entries) ∨ (∃ entries, arg = .list entries ∧ entries.length < 100) ∨
      ∃ pairs : List (K × Obj (St σ K) K), pairs ≠ [] ∧ arg = .list (pairs.map fun p => .pair (some p.1) p.2)) :
    (discreteOf key arg).map (doubleResolve E) =
      (mixtureOf arg).map fun p => sampleObj E (mixtureObj p) 1 none none := by
  have hsame : discreteOf key arg = mixtureOf arg := by
    rcases harg with ⟨entries, rfl⟩ | ⟨entries, rfl, hlen⟩ | ⟨pairs, hne, rfl⟩
    · rfl
    · unfold discreteOf mixtureOf
      simp only
      split_ifs with hall
      · have hback : (entries.filterMap VItem.plain?).map VItem.plain = entries := by
          clear hlen
          induction entries with
          | nil => rfl
          | cons a l ih =>
            simp only [List.all_cons, Bool.and_eq_true] at hall
            cases a with
            | plain a => simp [VItem.plain?, ih hall.2]
            | pair w a => simp [VItem.isPlain] at hall
        have hl : (entries.filterMap VItem.plain?).length = entries.length := by
          conv_rhs => rw [← hback]
          simp
        unfold processDiscreteBy
        rw [if_neg (by omega), hback]
      · rfl
    · unfold discreteOf mixtureOf
      simp only
      rw [if_neg]
      cases pairs with
      | nil => exact absurd rfl hne
      | cons a l => simp [VItem.isPlain]
  rw [hsame]
  cases mixtureOf arg with
  | error e => rfl
  | ok p => simp only [Except.map, double_resolve]


section Law

open MeasureTheory ProbabilityTheory Spec

variable {Ω : Type} [MeasurableSpace Ω] (S : IdealSource Ω) {E : Env (ℕ → Ω) ℝ} (hE : S.Drives E)
  (hU : S.primLaw (.uniform 0 1) = some (volume.restrict (Set.Ico 0 1)))

include hE hU

omit hU in
theorem sampleObj_places (k : ℕ) (ws : List ℝ) {n : ℕ} (hn : 1 ≤ n) (st : St (ℕ → Ω) ℝ) :
    sampleObj E (.mix k (fun i => .lit (.int i)) ws none none) n none none st
      = SM.bind (chooseRun E ws (List.finRange k) n)
          (fun l => SM.pure (Samples.simplify (.arr (l.map fun i : Fin k => .int ((i : ℕ) : ℤ))))) st := by
  have hL : E.gen.Lawful := by rw [hE.gen]; exact S.gen_lawful
  rw [← mixtureRun_numbers hL (fun i : Fin k => ((i : ℕ) : ℤ))]
  have hcomp : (mixtureRun E (fun (i : Fin k) m =>
      withClips E (Obj.lit (S := St (ℕ → Ω) ℝ) (.int i)).clips (rawObj E (.lit (.int i))) m none none) ws
      (List.finRange k) n) st = mixtureRun E (fun (i : Fin k) m => SM.pure (constSamples (.int ((i : ℕ) : ℤ)) m)) ws
      (List.finRange k) n st := by
    have hw : ∀ (i : Fin k) m, 1 ≤ m →
        withClips E (Obj.lit (S := St (ℕ → Ω) ℝ) (.int i)).clips (rawObj E (.lit (.int i))) m none none
          = SM.pure (constSamples (.int ((i : ℕ) : ℤ)) m) := by
      intro i m hm
      unfold withClips
      rw [if_neg (by omega)]
      rfl
    unfold mixtureRun
    split
    · rfl
    · rename_i ws' items _
      have hsmall : ∀ vals', mixtureSmall E (fun (i : Fin k) m =>
          withClips E (Obj.lit (S := St (ℕ → Ω) ℝ) (.int i)).clips (rawObj E (.lit (.int i))) m none none) ws'
            vals' n st
          = mixtureSmall E (fun (i : Fin k) m => SM.pure (constSamples (.int ((i : ℕ) : ℤ)) m)) ws' vals' n st := by
        intro vals'
        simp only [mixtureSmall, mixtureOne, hw _ 1 le_rfl]
      have hlarge : ∀ vals', mixtureLarge E (fun (i : Fin k) m =>
          withClips E (Obj.lit (S := St (ℕ → Ω) ℝ) (.int i)).clips (rawObj E (.lit (.int i))) m none none) ws'
            vals' n st
          = mixtureLarge E (fun (i : Fin k) m => SM.pure (constSamples (.int ((i : ℕ) : ℤ)) m)) ws' vals' n st := by
        intro vals'
        simp only [mixtureLarge, hw _ n hn]
      cases items.filterMap VItem.plain? with
      | nil => simp only [hsmall, hlarge]
      | cons a l =>
        cases l with
        | nil => simp only [hw a n hn]
        | cons b l => simp only [hsmall, hlarge]
  rw [← hcomp]
  exact withClips_free E _ hn st

/-- **C109.** With weights of sum one, the places of the `n` items chosen are independent, and each is a given
place with the probability of its weight. -/
theorem C109_law {ι : Type} (items : List ι) (ws : List ℝ) (hlen : ws.length = items.length)
    (hpos : ∀ w ∈ ws, 0 < w) (hsum : ws.sum = 1) {n : ℕ} (hn : 1 ≤ n)
    (left : ℕ → ℕ → Option (List (Scalar ℝ))) :
    ∃ I : Fin n → (ℕ → Ω) → Fin items.length, (∀ j, Measurable (I j)) ∧
      (∀ᵐ ω ∂(Measure.infinitePi fun _ : ℕ => S.law),
        (discreteChoose E (ws, items.map .plain) n ⟨ω, left⟩).1 = .ok (List.ofFn fun j => items[I j ω])) ∧
      (∀ j (i : Fin items.length), (Measure.infinitePi fun _ : ℕ => S.law) {ω | I j ω = i}
        = ENNReal.ofReal (ws[i.1]'(by rw [hlen]; exact i.2))) ∧
      iIndepFun I (Measure.infinitePi fun _ : ℕ => S.law) := by
  have hk : 0 < items.length := by
    rw [← hlen]
    by_contra h
    have : ws = [] := List.length_eq_zero_iff.1 (by omega)
    rw [this] at hsum
    simp at hsum
  set k := items.length with hkdef
  have hmix := Denotes.mix (L := S.primLaw) (S := St (ℕ → Ω) ℝ) (k := k) (ws := ws) hlen
    (ds := fun i => .lit (.int i)) (ν := fun i => Measure.dirac ((i : ℕ) : ℝ))
    (lc := none) (rc := none) (lo := none) (hi := none)
    (fun i => Denotes.lit (by simp [IsReal])) hpos hsum trivial trivial
  obtain ⟨_, X, hX, hae, hlaw, hind⟩ := C86_independent_samples S hE hU hmix hn left
  let g : ℝ → Fin k := fun x => ⟨min ⌊x⌋₊ (k - 1), by omega⟩
  have hg : Measurable g := by
    have h1 : Measurable fun x : ℝ => min ⌊x⌋₊ (k - 1) := Nat.measurable_floor.min measurable_const
    refine measurable_to_countable' fun i => ?_
    have : g ⁻¹' {i} = (fun x : ℝ => min ⌊x⌋₊ (k - 1)) ⁻¹' {i.1} := by
      ext x; simp [g, Fin.ext_iff]
    rw [this]
    exact h1 (measurableSet_singleton _)
  have hgi : ∀ i : Fin k, g ((i : ℕ) : ℝ) = i := by
    intro i
    apply Fin.ext
    simp only [g, Nat.floor_natCast]
    omega
  refine ⟨fun j ω => g (X j ω), fun j => hg.comp (hX j), ?_, ?_, ?_⟩
  · filter_upwards [hae] with ω hω
    obtain ⟨z, s', hz, hR⟩ := hω
    rw [sampleObj_places S hE k ws hn] at hz
    obtain ⟨l, s1, hl, hz⟩ := SM.bind_ok.1 hz
    obtain ⟨rfl, rfl⟩ := SM.pure_ok.1 hz
    have hl2 : l = List.ofFn fun j => g (X j ω) := by
      have h2 := hR.2
      rw [toList_simplify] at h2
      have h3 : List.Forall₂ (fun (i : Fin k) x => g x = i) l (List.ofFn fun j => X j ω) := by
        rw [List.forall₂_map_left_iff] at h2
        refine h2.imp fun i x hx => ?_
        have : x = ((i : ℕ) : ℝ) := by simpa [IsReal, eq_comm] using hx
        rw [this, hgi]
      have h4 := map_of_forall₂ h3
      rw [← h4, List.map_ofFn]
      rfl
    have hplaces := C109_places E (fun i : Fin k => items[i]) ws (List.finRange k) n ⟨ω, left⟩
    have hitems : (List.finRange k).map (fun i => items[i]) = items := by
      rw [← List.ofFn_eq_map]
      exact List.ofFn_getElem
    rw [hitems] at hplaces
    have hch : discreteChoose E (ws, (List.finRange k).map .plain) n ⟨ω, left⟩ = (.ok l, s1) := by
      unfold discreteChoose
      rw [if_neg (by omega)]
      have : ((List.finRange k).map (VItem.plain (K := ℝ))).filterMap VItem.plain? = List.finRange k := by
        generalize List.finRange k = l
        induction l with
        | nil => rfl
        | cons a l ih => simp [VItem.plain?, ih]
      rw [this, hl]
    rw [hplaces, hch, hl2]
    simp only [Except.map, List.map_ofFn]
    rfl
  · intro j i
    have h1 : {ω | g (X j ω) = i} = X j ⁻¹' (g ⁻¹' {i}) := rfl
    rw [h1, ← Measure.map_apply (hX j) (hg (measurableSet_singleton _)), hlaw j]
    have hcl : clamp none none = id := rfl
    rw [hcl, Measure.map_id, Measure.finsetSum_apply]
    rw [Finset.sum_eq_single i]
    · simp [Measure.dirac_apply' _ (hg (measurableSet_singleton _)), hgi]
    · intro b _ hb
      simp [Measure.dirac_apply' _ (hg (measurableSet_singleton _)), hgi, hb]
    · simp
  · exact hind.comp (fun _ => g) fun _ => hg

end Law


/-! ### Cases -/


/-- Five items of `discrete([a, b])` with the demo generator. -/
example (a b : Obj (St ℕ ℚ) ℚ) : (discreteChoose demoEnv ([1 / 2, 1 / 2], [.plain a, .plain b]) 5 (demoSt 0)).1
    = .ok [a, a, b, b, a] := by
  have h := C109_places demoEnv (fun t : Bool => if t then b else a) [1 / 2, 1 / 2] [false, true] 5 (demoSt 0)
  have h1 : (discreteChoose demoEnv (([1 / 2, 1 / 2] : List ℚ), ([false, true] : List Bool).map .plain) 5
      (demoSt 0)).1 = .ok [false, false, true, true, false] := by decide +kernel
  rw [h1] at h
  exact congrArg Prod.fst h

/-- 200 items of `discrete([[0.3, a], [0.7, b]])`: every one is `b` with probability 0.7. -/
example (a b : Obj (St (ℕ → ℝ × ℝ) ℝ) ℝ) :
    ∃ I : Fin 200 → (ℕ → ℝ × ℝ) → Fin 2,
      (∀ᵐ ω ∂(MeasureTheory.Measure.infinitePi fun _ : ℕ => demoSource.law),
        (discreteChoose idealEnv ([3 / 10, 7 / 10], [.plain a, .plain b]) 200 ⟨ω, fun _ _ => none⟩).1
          = .ok (List.ofFn fun j => [a, b][I j ω])) ∧
      ∀ j, (MeasureTheory.Measure.infinitePi fun _ : ℕ => demoSource.law) {ω | I j ω = 1} = ENNReal.ofReal (7 / 10) := by
  obtain ⟨I, -, h1, h2, -⟩ := C109_law demoSource (E := idealEnv) idealEnv_driven demoSource_uniform [a, b]
    [3 / 10, 7 / 10] rfl (by simp) (by norm_num) (n := 200) (by norm_num) (fun _ _ => none)
  exact ⟨I, h1, fun j => h2 j 1⟩

/-- `~~discrete([a, b])` is `~mixture([a, b])`. -/
example (a b : Obj (St ℕ ℚ) ℚ) : (discreteOf (fun _ => ()) (.list [.plain a, .plain b])).map (doubleResolve demoEnv) =
    (mixtureOf (.list [.plain a, .plain b])).map fun p => sampleObj demoEnv (mixtureObj p) 1 none none :=
  C109_double_resolve _ _ _ (Or.inr (Or.inl ⟨_, rfl, by simp⟩))

end Verif
