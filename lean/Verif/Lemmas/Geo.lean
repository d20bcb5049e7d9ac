import Verif.Lemmas.WeightsMap
import Verif.Lemmas.Sample
import Verif.Model.Odds
import Verif.Spec.Geo

/-!
# Lemmas on geometric means
-/

namespace Verif
open Verif.Spec

theorem mapExcept_map {α β : Type} {f : α → Except PyErr β} {g : α → β} : ∀ {l : List α},
    (∀ a ∈ l, f a = .ok (g a)) → mapExcept f l = .ok (l.map g)
  | [], _ => rfl
  | a :: l, h => by
    rw [mapExcept, h a (by simp), mapExcept_map (l := l) fun b hb => h b (by simp [hb])]
    rfl

theorem mapExcept_error {α β : Type} {f : α → Except PyErr β} {e : PyErr} : ∀ {l : List α},
    (∀ a ∈ l, (∃ b, f a = .ok b) ∨ f a = .error e) → (∃ a ∈ l, f a = .error e) →
    mapExcept f l = .error e
  | [], _, h => by simp at h
  | a :: l, h, h2 => by
    rw [mapExcept]
    rcases h a (by simp) with ⟨b, hb⟩ | hb
    · rw [hb]
      obtain ⟨c, hc, hce⟩ := h2
      rcases List.mem_cons.1 hc with rfl | hc
      · rw [hb] at hce; simp at hce
      · rw [mapExcept_error (l := l) (fun x hx => h x (by simp [hx])) ⟨c, hc, hce⟩]
        rfl
    · rw [hb]
      rfl

/-- The weighted log average of pairs, exponentiated, is the geometric mean. -/
theorem exp_average (ps : List (ℝ × ℝ)) (hpos : ∀ p ∈ ps, 0 < p.2) :
    Real.exp ((ps.map fun p => p.1 * Real.log p.2).sum / (ps.map Prod.fst).sum) =
      ((ps.map fun p => p.2 ^ p.1).prod) ^ (1 / (ps.map Prod.fst).sum) := by
  have key : ∀ l : List (ℝ × ℝ), (∀ p ∈ l, 0 < p.2) → 0 < (l.map fun p => p.2 ^ p.1).prod ∧
      Real.log (l.map fun p => p.2 ^ p.1).prod = (l.map fun p => p.1 * Real.log p.2).sum := by
    intro l
    induction l with
    | nil => intro _; simp
    | cons a l ih =>
      intro h
      obtain ⟨h1, h2⟩ := ih fun p hp => h p (by simp [hp])
      have ha : 0 < a.2 ^ a.1 := Real.rpow_pos_of_pos (h a (by simp)) _
      simp only [List.map_cons, List.prod_cons, List.sum_cons]
      exact ⟨mul_pos ha h1, by rw [Real.log_mul ha.ne' h1.ne', h2, Real.log_rpow (h a (by simp))]⟩
  obtain ⟨h1, h2⟩ := key ps hpos
  rw [Real.rpow_def_of_pos h1, h2, mul_one_div]

theorem wgeo_eq (ws vs : List ℝ) (hpos : ∀ v ∈ vs, 0 < v) :
    wgeo ws vs = Real.exp (((ws.zip vs).map fun p => p.1 * Real.log p.2).sum /
      ((ws.zip vs).map Prod.fst).sum) := by
  rw [wgeo, exp_average]
  intro p hp
  exact hpos _ (List.of_mem_zip hp).2

/-- Pairs of weight zero do not matter. -/
theorem wgeo_filter (ws vs : List ℝ) :
    wgeo (((ws.zip vs).filter fun p => p.1 ≠ 0).map Prod.fst)
      (((ws.zip vs).filter fun p => p.1 ≠ 0).map Prod.snd) = wgeo ws vs := by
  unfold wgeo
  generalize ws.zip vs = ps
  have hz : ∀ l : List (ℝ × ℝ), (l.map Prod.fst).zip (l.map Prod.snd) = l := by
    intro l
    induction l with
    | nil => rfl
    | cons a l ih => simp [ih]
  rw [hz]
  have h1 : ((ps.filter fun p => p.1 ≠ 0).map fun p => p.2 ^ p.1).prod =
      (ps.map fun p => p.2 ^ p.1).prod := by
    induction ps with
    | nil => rfl
    | cons a l ih =>
      by_cases h : a.1 = 0
      · rw [List.filter_cons_of_neg (by simp [h]), ih]
        simp [h]
      · rw [List.filter_cons_of_pos (by simp [h])]
        simp only [List.map_cons, List.prod_cons, ih]
  rw [h1]
  clear h1
  have h2 : ((ps.filter fun p => p.1 ≠ 0).map Prod.fst).sum = (ps.map Prod.fst).sum := by
    induction ps with
    | nil => rfl
    | cons a l ih =>
      by_cases h : a.1 = 0
      · rw [List.filter_cons_of_neg (by simp [h]), ih]
        simp [h]
      · rw [List.filter_cons_of_pos (by simp [h])]
        simp only [List.map_cons, List.sum_cons, ih]
  rw [h2]

/-- Scaling all weights does not matter. -/
theorem wgeo_scale_weights (ws vs : List ℝ) (c : ℝ) (hc : c ≠ 0) (hpos : ∀ v ∈ vs, 0 < v) :
    wgeo (ws.map (· / c)) vs = wgeo ws vs := by
  rw [wgeo_eq _ _ hpos, wgeo_eq _ _ hpos]
  congr 1
  have h : ∀ ws vs : List ℝ, (ws.map (· / c)).zip vs = (ws.zip vs).map fun p => (p.1 / c, p.2) := by
    intro ws vs
    rw [List.zip_map_left]
    rfl
  rw [h, List.map_map, List.map_map]
  have h1 : ((ws.zip vs).map ((fun p => p.1 * Real.log p.2) ∘ fun p : ℝ × ℝ => (p.1 / c, p.2))) =
      (ws.zip vs).map (fun p => p.1 * Real.log p.2 * c⁻¹) := by
    apply List.map_congr_left
    intro p _
    simp only [Function.comp]
    field_simp
  have h2 : ((ws.zip vs).map (Prod.fst ∘ fun p : ℝ × ℝ => (p.1 / c, p.2))) =
      (ws.zip vs).map (fun p => p.1 * c⁻¹) := by
    apply List.map_congr_left
    intro p _
    simp only [Function.comp]
    field_simp
  rw [h1, h2, List.sum_map_mul_right, List.sum_map_mul_right]
  exact mul_div_mul_right _ _ (inv_ne_zero hc)

/-- The weighted average of numbers between two bounds is between them. -/
theorem average_between {lo hi : ℝ} : ∀ (ws xs : List ℝ), ws.length = xs.length →
    (∀ w ∈ ws, 0 < w) → (∀ x ∈ xs, lo ≤ x ∧ x ≤ hi) →
    lo * ws.sum ≤ (List.zipWith (· * ·) ws xs).sum ∧ (List.zipWith (· * ·) ws xs).sum ≤ hi * ws.sum
  | [], _, _, _, _ => by simp
  | w :: ws, [], h, _, _ => by simp at h
  | w :: ws, x :: xs, hl, hw, hx => by
    obtain ⟨h1, h2⟩ := average_between ws xs (by simpa using hl) (fun y hy => hw y (by simp [hy]))
      (fun y hy => hx y (by simp [hy]))
    have hw0 := hw w (by simp)
    obtain ⟨h3, h4⟩ := hx x (by simp)
    simp only [List.sum_cons, List.zipWith_cons_cons]
    constructor
    · nlinarith
    · nlinarith

end Verif
