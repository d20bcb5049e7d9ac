import Verif.Lemmas.HeapRefine
import Verif.Props.Correlate

/-! # Lemmas for C131: groups whose members are built from each other, and the heap after `correlate` -/

namespace Verif
open Spec
variable {σ : Type} {α β : Type}

/-- From states with `C` the computation never returns a value. -/
def SM.Never (C : St σ ℝ → Prop) (m : SM σ ℝ α) : Prop := ∀ s, C s → ∀ a, (m s).1 ≠ .ok a

/-- The computation keeps `C`. -/
def SM.Inv (C : St σ ℝ → Prop) (m : SM σ ℝ α) : Prop := ∀ s, C s → C (m s).2

/-- Equal states with `C`. -/
def Both (C : St σ ℝ → Prop) (s t : St σ ℝ) : Prop := s = t ∧ C s

theorem SM.Inv.sim {C : St σ ℝ → Prop} {m : SM σ ℝ α} (h : SM.Inv C m) : SM.Sim (Both C) Eq m m := by
  rintro s _ ⟨rfl, hs⟩
  refine ⟨⟨rfl, h s hs⟩, ?_⟩
  rcases (m s).1 with e | a
  · exact Or.inr ⟨e, rfl, rfl⟩
  · exact Or.inl ⟨a, a, rfl, rfl, rfl⟩

theorem SM.Sim.inv {C : St σ ℝ → Prop} {m : SM σ ℝ α} (h : SM.Sim (Both C) Eq m m) : SM.Inv C m :=
  fun s hs => (h s s ⟨rfl, hs⟩).1.2

theorem SM.Never.bind_left {C : St σ ℝ → Prop} {m : SM σ ℝ α} (h : SM.Never C m) (f : α → SM σ ℝ β) :
    SM.Never C (SM.bind m f) := by
  intro s hs b hb
  unfold SM.bind at hb
  rcases hm : m s with ⟨e | a, s1⟩ <;> rw [hm] at hb
  · exact absurd hb (by simp)
  · exact h s hs a (by rw [hm])

theorem SM.Never.bind_right {C : St σ ℝ → Prop} {m : SM σ ℝ α} (hm : SM.Inv C m) {f : α → SM σ ℝ β}
    (h : ∀ a, SM.Never C (f a)) : SM.Never C (SM.bind m f) := by
  intro s hs b hb
  unfold SM.bind at hb
  have h1 := hm s hs
  rcases hms : m s with ⟨e | a, s1⟩ <;> rw [hms] at hb h1
  · exact absurd hb (by simp)
  · exact h a s1 h1 b hb

theorem SM.Never.mapL {C : St σ ℝ → Prop} {f : α → SM σ ℝ β} (hi : ∀ a, SM.Inv C (f a)) :
    ∀ {as : List α} {u : α}, u ∈ as → SM.Never C (f u) → SM.Never C (SM.mapL f as)
  | a :: as, u, hu, h => by
    unfold SM.mapL
    rcases List.mem_cons.1 hu with rfl | hu
    · exact h.bind_left _
    · exact SM.Never.bind_right (hi a) fun b => (SM.Never.mapL hi hu h).bind_left _

theorem withClips_never {C : St σ ℝ → Prop} (E : Env σ ℝ) (own : Option (Scalar ℝ) × Option (Scalar ℝ))
    {raw : ℕ → SM σ ℝ (Samples ℝ)} {n : ℕ} (h : SM.Never C (raw n)) (lc rc : Option (Scalar ℝ)) :
    SM.Never C (withClips E own raw n lc rc) := by
  unfold withClips
  split_ifs
  · intro s _ a ha
    exact absurd ha (by simp [SM.throw])
  · refine SM.Never.bind_right (fun s hs => hs) fun l => SM.Never.bind_right (fun s hs => hs) fun r => ?_
    exact h.bind_left _

/-- No member keeps samples. -/
def Clean (ms : List ℕ) (s : St σ ℝ) : Prop := ∀ b ∈ ms, s.left 0 b = none

theorem clean_steady (ms : List ℕ) : SteadyRel (Both (σ := σ) (Clean ms)) :=
  ⟨fun _ _ h => by rw [h.1], fun _ _ _ h => ⟨by rw [h.1], h.2⟩⟩

/-- Sampling the object leads to sampling the group: it is a member, or an expression of such an object. -/
inductive Doomed (H : DHeap HPay) (g : ℕ) (ms : List ℕ) : ℕ → Prop
  | member {a : ℕ} {nd : DNode HPay} (hnd : H.nodes[a]? = some nd) (hg : nd.group = some g) (ha : a ∈ ms) :
      Doomed H g ms a
  | operand {a b : ℕ} (h : OperandOf H b a) (hb : Doomed H g ms b) : Doomed H g ms a

theorem dispatch_never {X : HEnv σ} {rec : ℕ → Bool → ℕ → SM σ ℝ (Samples ℝ)} {C : St σ ℝ → Prop}
    {nd : DNode HPay} {b n : ℕ} (hp : (∃ f, nd.payload = .un f) ∨ ∃ f, nd.payload = .bin f) (hb : b ∈ nd.kids)
    (hi : ∀ x, SM.Inv C (rec x true n)) (h : SM.Never C (rec b true n)) :
    SM.Never C (heapDispatch X rec nd n) := by
  have hbad : SM.Never C (SM.throw .unmodelled : SM σ ℝ (Samples ℝ)) :=
    fun s _ a ha => absurd ha (by simp [SM.throw])
  unfold heapDispatch
  rcases hp with ⟨f, hp⟩ | ⟨f, hp⟩
  · rw [hp]
    split
    · simp_all
    · simp_all
    · rename_i l he
      rw [he, List.mem_singleton] at hb
      subst hb
      exact h.bind_left _
    · simp_all
    · exact hbad
  · rw [hp]
    split
    · simp_all
    · simp_all
    · simp_all
    · rename_i l r he
      rw [he] at hb
      rcases List.mem_cons.1 hb with rfl | hb
      · exact h.bind_left _
      · rw [List.mem_singleton] at hb
        subst hb
        exact SM.Never.bind_right (hi _) fun x => h.bind_left _
    · exact hbad

/-- A group with a member that is an expression of a member never gets sampled, whatever the recursion limit. -/
theorem heap_stuck {X : HEnv σ} {H : DHeap HPay} (hL : PointsBack H) {g : ℕ} {G : GNode}
    (hG : H.groups[g]? = some G) {u : ℕ} {ndu : DNode HPay} (hu : u ∈ G.members)
    (hndu : H.nodes[u]? = some ndu) (hpu : (∃ f, ndu.payload = .un f) ∨ ∃ f, ndu.payload = .bin f) {b : ℕ}
    (hb : b ∈ ndu.kids) (hd : Doomed H g G.members b) (fuel : ℕ) :
    (∀ a corr n lc rc, SM.Inv (Clean G.members) (heapSample X H fuel a corr n lc rc)) ∧
    (∀ a n lc rc, Doomed H g G.members a → SM.Never (Clean G.members) (heapSample X H fuel a true n lc rc)) ∧
    ∀ n lc rc, SM.Never (Clean G.members) (heapSample X H fuel u false n lc rc) := by
  have hthrow : ∀ {α : Type} (e : PyErr), SM.Never (Clean G.members) (SM.throw e : SM σ ℝ α) :=
    fun e s _ a ha => absurd ha (by simp [SM.throw])
  induction fuel with
  | zero =>
    exact ⟨fun a corr n lc rc s hs => hs, fun a n lc rc _ => hthrow _, fun n lc rc => hthrow _⟩
  | succ fuel ih =>
    obtain ⟨ih1, ih2, ih3⟩ := ih
    have hcolsI : ∀ (ms : List ℕ) (n : ℕ), SM.Inv (Clean G.members) (SM.mapL (fun b => SM.bind
        (heapSample X H fuel b false n none none) fun x => SM.lift (toColumn n x)) ms) := by
      intro ms n
      refine SM.Sim.inv (mapL_simEq _ fun a _ => SM.Sim.bind (ih1 a false n none none).sim ?_)
      rintro x _ rfl
      exact SM.Sim.lift _
    -- a joint draw of this group never succeeds
    have hcols : ∀ n, SM.Never (Clean G.members) (SM.mapL (fun b => SM.bind
        (heapSample X H fuel b false n none none) fun x => SM.lift (toColumn n x)) G.members) := by
      intro n
      refine SM.Never.mapL (fun a => ?_) hu ((ih3 n none none).bind_left _)
      refine SM.Sim.inv (SM.Sim.bind (ih1 a false n none none).sim ?_)
      rintro x _ rfl
      exact SM.Sim.lift _
    have hgroup : ∀ a n, SM.Never (Clean G.members)
        (heapGroup X H (fun b c m => heapSample X H fuel b c m none none) a g n) := by
      intro a n
      unfold heapGroup
      rw [hG]
      exact (hcols n).bind_left _
    have hgroupI : ∀ a g' n, SM.Inv (Clean G.members)
        (heapGroup X H (fun b c m => heapSample X H fuel b c m none none) a g' n) := by
      intro a g' n
      by_cases hg : g' = g
      · subst hg
        unfold heapGroup
        rw [hG]
        dsimp only
        intro s hs
        have h1 := hcols n s hs
        have h2 := hcolsI G.members n s hs
        unfold SM.bind
        rcases hm : SM.mapL (fun b => SM.bind (heapSample X H fuel b false n none none) fun x =>
          SM.lift (toColumn n x)) G.members s with ⟨e | cols, s1⟩
        · unfold SM.bind at hm
          rw [hm]
          unfold SM.bind at h2
          rw [hm] at h2
          exact h2
        · exact absurd (by rw [hm]) (h1 cols)
      · unfold heapGroup
        cases hG' : H.groups[g']? with
        | none => exact fun s hs => hs
        | some G' =>
          refine SM.Sim.inv (SM.Sim.bind (hcolsI _ _).sim ?_)
          rintro cols _ rfl
          refine SM.Sim.bind (SM.Sim.lift _) ?_
          rintro cols' _ rfl
          refine SM.Inv.sim fun s hs x hx => ?_
          rw [heapStore_other _ _ _ _ _ (Or.inr (Or.inl ?_))]
          · exact hs x hx
          · intro hx'
            obtain ⟨nd, h1, h2⟩ := hL g G hG x hx
            obtain ⟨nd', h1', h2'⟩ := hL g' G' hG' x hx'
            rw [h1] at h1'
            obtain rfl := Option.some.inj h1'
            rw [h2] at h2'
            exact hg (Option.some.inj h2').symm
    have hdispI : ∀ nd n, SM.Inv (Clean G.members)
        (heapDispatch X (fun b c m => heapSample X H fuel b c m none none) nd n) := by
      intro nd n
      unfold heapDispatch
      split
      · exact (leafSample_sim (clean_steady _) X.E _ n).inv
      · exact (mixtureRun_sim (clean_steady _) X.E (fun i m => (ih1 _ true m none none).sim) _ _ n).inv
      · refine SM.Sim.inv (SM.Sim.bind (ih1 _ true n none none).sim ?_)
        rintro x _ rfl
        exact SM.Sim.lift _
      · refine SM.Sim.inv (SM.Sim.bind (ih1 _ true n none none).sim ?_)
        rintro x _ rfl
        refine SM.Sim.bind (ih1 _ true n none none).sim ?_
        rintro y _ rfl
        exact SM.Sim.lift _
      · exact fun s hs => hs
    have htake : ∀ a, SM.Inv (Clean G.members) (takeLeft (σ := σ) (K := ℝ) 0 a) := by
      intro a s hs x hx
      unfold takeLeft
      cases s.left 0 a with
      | none => exact hs x hx
      | some xs =>
        dsimp only
        split_ifs
        · rfl
        · exact hs x hx
    refine ⟨fun a corr n lc rc => ?_, fun a n lc rc hda => ?_, fun n lc rc => ?_⟩
    · unfold heapSample
      cases hnd : H.nodes[a]? with
      | none => exact fun s hs => hs
      | some nd =>
        refine SM.Sim.inv (withClips_sim X.E _ (fun _ => SM.Inv.sim ?_) lc rc)
        unfold heapRaw
        split
        · refine SM.Sim.inv (SM.Sim.bind (htake a).sim ?_)
          rintro kept _ rfl
          refine SM.Inv.sim fun s hs => ?_
          cases kept with
          | none => exact hgroupI a _ n s hs
          | some xs => exact hs
        · exact hdispI nd n
    · unfold heapSample
      cases hda with
      | @member _ nd hnd hg ha =>
        rw [hnd]
        refine withClips_never X.E _ ?_ lc rc
        unfold heapRaw
        rw [hg]
        dsimp only
        intro s hs x hx
        unfold SM.bind takeLeft at hx
        rw [hs a ha] at hx
        exact hgroup a n s hs x hx
      | @operand _ b' hop hb' =>
        obtain ⟨nd, hnd, hgn, hmem, hp⟩ := hop
        rw [hnd]
        refine withClips_never X.E _ ?_ lc rc
        unfold heapRaw
        rw [hgn]
        exact dispatch_never hp hmem (fun x => ih1 x true n none none) (ih2 b' n none none hb')
    · unfold heapSample
      rw [hndu]
      refine withClips_never X.E _ ?_ lc rc
      unfold heapRaw
      exact dispatch_never hpu hb (fun x => ih1 x true n none none) (ih2 b n none none hd)

/-- A condition on the kept samples that no step can break. -/
theorem heap_inv {X : HEnv σ} {H : DHeap HPay} {C : St σ ℝ → Prop} (hC : SteadyRel (Both C))
    (htake : ∀ a, SM.Inv C (takeLeft 0 a))
    (hstore : ∀ (a : ℕ) (nd : DNode HPay) (g : ℕ) (G : GNode) (cols : List (List ℝ)), H.nodes[a]? = some nd → nd.group = some g → H.groups[g]? = some G →
      SM.Inv C (heapStore a G.members cols none)) (fuel : ℕ) :
    ∀ a corr n lc rc, SM.Inv C (heapSample X H fuel a corr n lc rc) := by
  induction fuel with
  | zero => exact fun a corr n lc rc s hs => hs
  | succ fuel ih =>
    intro a corr n lc rc
    unfold heapSample
    cases hnd : H.nodes[a]? with
    | none => exact fun s hs => hs
    | some nd =>
      refine SM.Sim.inv (withClips_sim X.E _ (fun _ => SM.Inv.sim ?_) lc rc)
      unfold heapRaw
      split
      · rename_i _ g hg
        refine SM.Sim.inv (SM.Sim.bind (htake a).sim ?_)
        rintro kept _ rfl
        refine SM.Inv.sim fun s hs => ?_
        cases kept with
        | some xs => exact hs
        | none =>
          revert s
          change SM.Inv C (heapGroup X H _ a g n)
          unfold heapGroup
          cases hG : H.groups[g]? with
          | none => exact fun s hs => hs
          | some G =>
            refine SM.Sim.inv (SM.Sim.bind (mapL_simEq _ fun b _ => SM.Sim.bind (ih b false n none none).sim ?_) ?_)
            · rintro x _ rfl
              exact SM.Sim.lift _
            · rintro cols _ rfl
              refine SM.Sim.bind (SM.Sim.lift _) ?_
              rintro cols' _ rfl
              exact (hstore a nd g G cols' hnd hg hG).sim
      · unfold heapDispatch
        split
        · exact (leafSample_sim hC X.E _ n).inv
        · exact (mixtureRun_sim hC X.E (fun i m => (ih _ true m none none).sim) _ _ n).inv
        · refine SM.Sim.inv (SM.Sim.bind (ih _ true n none none).sim ?_)
          rintro x _ rfl
          exact SM.Sim.lift _
        · refine SM.Sim.inv (SM.Sim.bind (ih _ true n none none).sim ?_)
          rintro x _ rfl
          refine SM.Sim.bind (ih _ true n none none).sim ?_
          rintro y _ rfl
          exact SM.Sim.lift _
        · exact fun s hs => hs

end Verif
