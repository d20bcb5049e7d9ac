import Verif.Lemmas.Shape
import Verif.Props.Mixture

/-!
# Helper lemmas: mixtures whose weights do not sum to exactly 1
-/

namespace Verif

section

variable {K : Type} [Field K] [LinearOrder K] [IsStrictOrderedRing K]

/-- The last weight does not matter for up to 100 samples. -/
theorem pickSmall_last (init : List K) {a b : K} (hpos : ∀ w ∈ init, 0 < w) (ha : 0 < a) (hb : 0 < b) (u : K) :
    pickSmall (init ++ [a]) u = pickSmall (init ++ [b]) u := by
  have hnn : ∀ c : K, 0 < c → ∀ w ∈ init ++ [c], 0 ≤ w := by
    intro c hc w hw
    rcases List.mem_append.1 hw with h | h
    · exact (hpos w h).le
    · rw [List.mem_singleton.1 h]; exact hc.le
  obtain ⟨h1, h2, h3⟩ := (pickSmall_iff (init ++ [b]) (hnn b hb) (by simp) u _).1 rfl
  rw [pickSmall_iff (init ++ [a]) (hnn a ha) (by simp)]
  set i := pickSmall (init ++ [b]) u
  simp only [List.length_append, List.length_singleton] at h1 h2 ⊢
  have htake : ∀ (j : ℕ) (c : K), j ≤ init.length → (init ++ [c]).take j = init.take j := fun j c hj =>
    List.take_append_of_le_length hj
  refine ⟨h1, ?_, ?_⟩
  · by_cases he : i + 1 = init.length + 1
    · exact Or.inr he
    · left
      rcases h2 with h2 | h2
      · rw [htake _ _ (by omega)] at h2 ⊢
        exact h2
      · exact absurd h2 he
  · rw [htake _ _ (by omega)] at h3 ⊢
    exact h3

/-- Nor for more samples, if the weights reach the number drawn. -/
theorem pickLarge_last (init : List K) {a b : K} (hpos : ∀ w ∈ init, 0 < w) (ha : 0 < a) (hb : 0 < b) {u : K}
    (hua : u ≤ (init ++ [a]).sum) (hub : u ≤ (init ++ [b]).sum) :
    pickLarge (init ++ [a]) u = pickLarge (init ++ [b]) u := by
  have hnn : ∀ c : K, 0 < c → ∀ w ∈ init ++ [c], 0 ≤ w := by
    intro c hc w hw
    rcases List.mem_append.1 hw with h | h
    · exact (hpos w h).le
    · rw [List.mem_singleton.1 h]; exact hc.le
  rw [(C06_strategies_partial _ (hnn a ha) (by simp) u hua).1, (C06_strategies_partial _ (hnn b hb) (by simp) u hub).1,
    pickSmall_last init hpos ha hb]

end

section

variable {σ K : Type} [Field K] [LinearOrder K] [IsStrictOrderedRing K] [FloorRing K] {ι : Type}
  {comp : ι → ℕ → SM σ K (Samples K)} {E : Env σ K} {init : List K} {a b : K}

omit [FloorRing K] in
theorem mixtureSmall_last (hpos : ∀ w ∈ init, 0 < w) (ha : 0 < a) (hb : 0 < b) (vals : List ι) (n : ℕ) :
    mixtureSmall E comp (init ++ [a]) vals n = mixtureSmall E comp (init ++ [b]) vals n := by
  have h : mixtureOne E comp (init ++ [a]) vals = mixtureOne E comp (init ++ [b]) vals := by
    unfold mixtureOne
    simp only [pickSmall_last init hpos ha hb]
  unfold mixtureSmall
  rw [h]

theorem mapExcept_congr' {α β : Type} {f g : α → Except PyErr β} :
    ∀ {l : List α}, (∀ x ∈ l, f x = g x) → mapExcept f l = mapExcept g l
  | [], _ => rfl
  | x :: l, h => by
    simp only [mapExcept]
    rw [h x List.mem_cons_self, mapExcept_congr' fun y hy => h y (List.mem_cons_of_mem _ hy)]

theorem mixtureLarge_last (hE : E.gen.Lawful) (hpos : ∀ w ∈ init, 0 < w) (ha : 0 < a) (hb : 0 < b)
    (hsa : 1 ≤ (init ++ [a]).sum) (hsb : 1 ≤ (init ++ [b]).sum) (vals : List ι) (n : ℕ) :
    mixtureLarge E comp (init ++ [a]) vals n = mixtureLarge E comp (init ++ [b]) vals n := by
  funext st
  simp only [mixtureLarge, SM.bind]
  cases SM.mapL (fun i => comp i n) vals st with
  | mk r s =>
    cases r with
    | error e => rfl
    | ok pre =>
      dsimp only
      cases hd : drawSM E (.uniform 0 1) n s with
      | mk r' s' =>
        cases r' with
        | error e => rfl
        | ok us =>
          dsimp only [SM.lift]
          have hs := (hE _ _ _ _ _ (drawSM_ok hd).1).2
          rw [mapExcept_congr' (g := pickValue (init ++ [b]) pre)]
          rintro ⟨v, j⟩ hv
          have hmem : v ∈ us := by
            have := List.mem_zipIdx hv
            obtain ⟨-, h2, h3⟩ := this
            simp only [h3]
            exact List.getElem_mem _
          obtain ⟨u, rfl, -, -, hu⟩ := hs v hmem
          have hu1 : u < 1 := hu zero_lt_one
          simp only [pickValue, pickLarge_last init hpos ha hb (hu1.le.trans hsa) (hu1.le.trans hsb)]

theorem mixtureRun_last (hE : E.gen.Lawful) (hpos : ∀ w ∈ init, 0 < w) (ha : 0 < a) (hb : 0 < b)
    (hb1 : (init ++ [b]).sum = 1) (hlo : 99 / 100 < (init ++ [a]).sum) (hhi : (init ++ [a]).sum < 101 / 100)
    (vals : List ι) (hv : vals.length = init.length + 1) {n : ℕ} (hn : n ≤ 100 ∨ 1 ≤ (init ++ [a]).sum) :
    mixtureRun E comp (init ++ [a]) vals n = mixtureRun E comp (init ++ [b]) vals n := by
  have hp : ∀ c : K, 0 < c → ∀ w ∈ init ++ [c], 0 < w := by
    intro c hc w hw
    rcases List.mem_append.1 hw with h | h
    · exact hpos w h
    · rw [List.mem_singleton.1 h]; exact hc
  have hne : vals ≠ [] := by rintro rfl; simp at hv
  have h1 : (processWeightsValues (fun _ => false) (.list ((init ++ [a]).map some)) .absent
      (.list (vals.map .plain)) false).result = .ok (init ++ [a], vals.map .plain) :=
    C07_reprocessing_is_identity _ vals (by simp [hv]) hne (hp a ha) hlo hhi
  have h2 : (processWeightsValues (fun _ => false) (.list ((init ++ [b]).map some)) .absent
      (.list (vals.map .plain)) false).result = .ok (init ++ [b], vals.map .plain) :=
    C07_reprocessing_is_identity _ vals (by simp [hv]) hne (hp b hb) (by rw [hb1]; norm_num) (by rw [hb1]; norm_num)
  funext st
  simp only [mixtureRun, h1, h2]
  have hif : (if n > 100 then mixtureLarge E comp (init ++ [a]) ((vals.map VItem.plain).filterMap (VItem.plain? (K := K))) n st
        else mixtureSmall E comp (init ++ [a]) ((vals.map VItem.plain).filterMap (VItem.plain? (K := K))) n st)
      = (if n > 100 then mixtureLarge E comp (init ++ [b]) ((vals.map VItem.plain).filterMap (VItem.plain? (K := K))) n st
        else mixtureSmall E comp (init ++ [b]) ((vals.map VItem.plain).filterMap (VItem.plain? (K := K))) n st) := by
    by_cases hbig : n > 100
    · rw [if_pos hbig, if_pos hbig,
        mixtureLarge_last hE hpos ha hb (hn.resolve_left (by omega)) hb1.ge]
    · rw [if_neg hbig, if_neg hbig, mixtureSmall_last hpos ha hb]
  split <;> first | rfl | exact hif

end

end Verif
