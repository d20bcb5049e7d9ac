import Verif.Model.RoundedGeo
import Verif.Spec.ElemFns
import Verif.Spec.Geo
import Verif.Lemmas.FloatMean
import Verif.Lemmas.Geo
import Verif.Props.RoundedHelpers
import Verif.Props.RoundedWeights
import Verif.Props.Pooling

/-! # Lemmas on geometric means with rounding -/

namespace Verif

open Spec

variable {p : ℕ} {fl : ℝ → ℝ}

/-- The order adds up every place once. -/
def OrderOf (order : ℕ → SumOrder ℕ) : Prop := ∀ n, 1 ≤ n → (order n).leaves.Perm (List.range n)

theorem range_getD (xs : List ℝ) : (List.range xs.length).map (fun i => xs.getD i 0) = xs := by
  apply List.ext_getElem
  · simp
  · intro i h1 h2
    simp [List.getElem?_eq_getElem h2]

theorem addUpFl_err (h : RoundsTo p fl) {order : ℕ → SumOrder ℕ} (ho : OrderOf order) {xs : List ℝ} (hne : xs ≠ [])
    {n : ℕ} (hn : xs.length ≤ n) :
    |addUpFl fl order xs - xs.sum| ≤ ((1 + ulp p) ^ n - 1) * (xs.map abs).sum := by
  have h1 := (sumFl_err h ((order xs.length).map fun i => xs.getD i 0)).1
  have hp : ((order xs.length).map fun i => xs.getD i 0).leaves.Perm xs := by
    rw [map_leaves]
    exact ((ho _ (List.length_pos_iff.2 hne)).map _).trans (by rw [range_getD])
  have hd := SumOrder.depth_lt ((order xs.length).map fun i => xs.getD i 0)
  rw [hp.length_eq] at hd
  rw [hp.sum_eq, (hp.map abs).sum_eq] at h1
  refine h1.trans (mul_le_mul_of_nonneg_right ?_ ?_)
  · have := pow_le_pow_right₀ (a := (1 + ulp p : ℝ)) (by linarith [ulp_pos (K := ℝ) p]) (hd.le.trans hn)
    linarith
  · exact List.sum_nonneg (by simp)

theorem prods_err (h : RoundsTo p fl) {e L : ℝ} (he : 0 ≤ e) (f t : ℝ → ℝ) :
    ∀ ws xs : List ℝ, ws.length = xs.length → (∀ w ∈ ws, 0 ≤ w) →
      (∀ x ∈ xs, |f x - t x| ≤ e * |t x| ∧ |t x| ≤ L) →
      |(List.zipWith (fun w x => fl (w * x)) ws (xs.map f)).sum - (List.zipWith (fun w x => w * t x) ws xs).sum|
          ≤ ((1 + ulp p) * (1 + e) - 1) * L * ws.sum ∧
        ((List.zipWith (fun w x => fl (w * x)) ws (xs.map f)).map abs).sum ≤ (1 + ulp p) * (1 + e) * L * ws.sum ∧
        |(List.zipWith (fun w x => w * t x) ws xs).sum| ≤ L * ws.sum := by
  have hu := ulp_pos (K := ℝ) p
  intro ws
  induction ws with
  | nil => intro xs _ _ _; simp
  | cons w ws ih =>
    intro xs hl hw hx
    rcases xs with _ | ⟨x, xs⟩
    · simp at hl
    obtain ⟨i1, i2, i3⟩ := ih xs (by simpa using hl) (fun v hv => hw v (by simp [hv]))
      (fun v hv => hx v (by simp [hv]))
    obtain ⟨a1, a2⟩ := hx x (by simp)
    have hw0 := hw w (by simp)
    have b0 := h.err (w * f x)
    have b1 : |w * f x - w * t x| ≤ e * (w * L) := by
      rw [← mul_sub, abs_mul, abs_of_nonneg hw0]
      have := mul_le_mul_of_nonneg_left (a1.trans (mul_le_mul_of_nonneg_left a2 he)) hw0
      linarith
    have b2 : |w * t x| ≤ w * L := by
      rw [abs_mul, abs_of_nonneg hw0]
      exact mul_le_mul_of_nonneg_left a2 hw0
    have b3 : |w * f x| ≤ (1 + e) * (w * L) := by
      have : w * f x = (w * f x - w * t x) + w * t x := by ring
      rw [this]
      refine (abs_add_le _ _).trans ?_
      linarith
    have b4 := mul_le_mul_of_nonneg_left b3 hu.le
    have b5 : |fl (w * f x) - w * t x| ≤ ((1 + ulp p) * (1 + e) - 1) * L * w := by
      have : fl (w * f x) - w * t x = (fl (w * f x) - w * f x) + (w * f x - w * t x) := by ring
      rw [this]
      refine (abs_add_le _ _).trans ?_
      linarith
    have b6 : |fl (w * f x)| ≤ (1 + ulp p) * (1 + e) * L * w := by
      have : fl (w * f x) = (fl (w * f x) - w * f x) + w * f x := by ring
      rw [this]
      refine (abs_add_le _ _).trans ?_
      linarith
    simp only [List.map_cons, List.zipWith_cons_cons, List.sum_cons]
    refine ⟨?_, ?_, ?_⟩
    · rw [add_sub_add_comm]
      refine (abs_add_le _ _).trans ?_
      linarith
    · linarith
    · refine (abs_add_le _ _).trans ?_
      linarith

/-- The power of a rounding factor. -/
theorem pow_le_inv {u : ℝ} (hu : 0 < u) {n : ℕ} (hn : n * u ≤ 1 / 2) : (1 + u) ^ n * (1 - n * u) ≤ 1 := by
  rcases Nat.eq_zero_or_pos n with rfl | hn0
  · simp
  have hu1 : u ≤ 1 / 2 := by
    have : (1 : ℝ) ≤ n := by exact_mod_cast hn0
    nlinarith
  have h1 : 1 - n * u ≤ (1 - u) ^ n := by
    have := one_add_mul_le_pow (a := -u) (by linarith) n
    have e1 : (1 : ℝ) + -u = 1 - u := by ring
    rw [e1] at this
    linarith
  calc (1 + u) ^ n * (1 - n * u) ≤ (1 + u) ^ n * (1 - u) ^ n := by gcongr
    _ = ((1 + u) * (1 - u)) ^ n := by rw [mul_pow]
    _ ≤ 1 := pow_le_one₀ (by nlinarith) (by nlinarith)

theorem factor_bound {u x e P : ℝ} (hu : 0 < u) (hun : u ≤ x) (hx1 : x ≤ 1 / 100000) (he : 0 ≤ e) (hP1 : 1 ≤ P)
    (hPx : P * (1 - x) ≤ 1) : (1 + u) * ((1 + u) * (1 + e)) * P / (2 - P) ≤ 1 + 2 * e + 5 * x := by
  have hx0 : 0 < x := hu.trans_le hun
  have hP2 : 0 < 2 - P := by nlinarith
  rw [div_le_iff₀ hP2]
  have r0 : (1 + u) * (1 + u) ≤ (1 + x) ^ 2 := by
    rw [pow_two]
    exact mul_le_mul (by linarith) (by linarith) (by linarith) (by linarith)
  have r1 : (1 + u) * ((1 + u) * (1 + e)) ≤ (1 + x) ^ 2 * (1 + e) := by
    rw [← mul_assoc]
    exact mul_le_mul_of_nonneg_right r0 (by linarith)
  have hxx : x * x ≤ x * (1 / 100000) := mul_le_mul_of_nonneg_left hx1 hx0.le
  have r2 : (1 + x) ^ 2 * (1 + e) ≤ (1 + 2 * e + 5 * x) * (1 - 2 * x) := by
    have a1 := mul_nonneg he (show 0 ≤ 1 - 6 * x - x * x by linarith)
    have a2 := mul_nonneg hx0.le (show 0 ≤ 1 - 11 * x by linarith)
    linarith
  have r3 : P * (1 - 2 * x) ≤ 2 - P := by linarith
  calc (1 + u) * ((1 + u) * (1 + e)) * P ≤ (1 + 2 * e + 5 * x) * (1 - 2 * x) * P :=
        mul_le_mul_of_nonneg_right (r1.trans r2) (by linarith)
    _ = (1 + 2 * e + 5 * x) * (P * (1 - 2 * x)) := by ring
    _ ≤ _ := mul_le_mul_of_nonneg_left r3 (by linarith)

theorem npAverageFl_err (h : RoundsTo p fl) {order : ℕ → SumOrder ℕ} (ho : OrderOf order) {e L : ℝ} (he : 0 ≤ e)
    (f t : ℝ → ℝ) (hL : 0 ≤ L) {ws xs : List ℝ} (hl : ws.length = xs.length)
    (hw : ∀ w ∈ ws, 0 ≤ w) (hW : 0 < ws.sum) (hx : ∀ x ∈ xs, |f x - t x| ≤ e * |t x| ∧ |t x| ≤ L)
    {n : ℕ} (hn : ws.length ≤ n) (hnu : n * ulp p ≤ (1 / 100000 : ℝ)) :
    ∃ m, npAverageFl fl order ws (xs.map f) = .ok m ∧
      |m - (List.zipWith (fun w x => w * t x) ws xs).sum / ws.sum| ≤ (2 * e + 5 * (n * ulp p)) * L := by
  have hu := ulp_pos (K := ℝ) p
  have hne : ws ≠ [] := by rintro rfl; simp at hW
  have hn1 : 1 ≤ n := (List.length_pos_iff.2 hne).trans_le hn
  have hun : ulp p ≤ (n : ℝ) * ulp p := by
    have : (1 : ℝ) ≤ n := by exact_mod_cast hn1
    nlinarith
  have hzl : (List.zipWith (fun w x => fl (w * x)) ws (xs.map f)).length = ws.length := by simp [hl]
  obtain ⟨c1, c2, c3⟩ := prods_err h he f t ws xs hl hw hx
  have d1 := addUpFl_err h ho (xs := List.zipWith (fun w x => fl (w * x)) ws (xs.map f))
    (by rw [← List.length_pos_iff, hzl]; exact List.length_pos_iff.2 hne) (n := n) (by rw [hzl]; exact hn)
  have d2 := addUpFl_err h ho hne hn
  have habs : ws.map abs = ws := by
    conv_rhs => rw [← List.map_id ws]
    exact List.map_congr_left fun w hw' => abs_of_nonneg (hw w hw')
  rw [habs] at d2
  unfold npAverageFl
  set D := addUpFl fl order ws
  set S := addUpFl fl order (List.zipWith (fun w x => fl (w * x)) ws (xs.map f))
  set Q := (List.zipWith (fun w x => fl (w * x)) ws (xs.map f)).sum
  set T := (List.zipWith (fun w x => w * t x) ws xs).sum
  set W := ws.sum
  set P : ℝ := (1 + ulp p) ^ n with hP
  set a : ℝ := (1 + ulp p) * (1 + e) with ha
  set x : ℝ := n * ulp p with hxd
  have hP1 : 1 ≤ P := one_le_pow₀ (by linarith)
  have hPx : P * (1 - x) ≤ 1 := pow_le_inv hu (by rw [← hxd]; linarith)
  have ha1 : 1 ≤ a := by rw [ha]; nlinarith
  have hx0 : 0 < x := hu.trans_le hun
  -- sum of products
  have s1 : |S - T| ≤ (P * a - 1) * L * W := by
    have e1 := mul_le_mul_of_nonneg_left c2 (sub_nonneg.2 hP1)
    have : S - T = (S - Q) + (Q - T) := by ring
    rw [this]
    refine (abs_add_le _ _).trans ?_
    linarith
  have s2 : |S| ≤ P * a * L * W := by
    have : S = (S - T) + T := by ring
    rw [this]
    refine (abs_add_le _ _).trans ?_
    linarith
  have hP2 : 0 < 2 - P := by nlinarith
  have hD : (2 - P) * W ≤ D := by
    have := (abs_le.1 d2).1
    linarith
  have hDpos : 0 < D := (mul_pos hP2 hW).trans_le hD
  rw [if_neg hDpos.ne']
  refine ⟨_, rfl, ?_⟩
  have hLW : 0 ≤ L * W := mul_nonneg hL hW.le
  have q1 : |S / D| ≤ P * a * L / (2 - P) := by
    rw [abs_div, abs_of_pos hDpos, div_le_div_iff₀ hDpos hP2]
    calc |S| * (2 - P) ≤ P * a * L * W * (2 - P) := by gcongr
      _ = P * a * L * ((2 - P) * W) := by ring
      _ ≤ P * a * L * D := by gcongr
  have q2 : |S / D - T / W| ≤ (P * a + P - 2) * L / (2 - P) := by
    have e1 : S / D - T / W = ((S - T) + (T / W) * (W - D)) / D := by
      field_simp
      ring
    have e2 : |T / W| ≤ L := by
      rw [abs_div, abs_of_pos hW, div_le_iff₀ hW]
      exact c3
    have e3 : |(S - T) + (T / W) * (W - D)| ≤ (P * a + P - 2) * L * W := by
      refine (abs_add_le _ _).trans ?_
      rw [abs_mul, abs_sub_comm W D]
      have := mul_le_mul e2 d2 (abs_nonneg _) hL
      linarith
    rw [e1, abs_div, abs_of_pos hDpos, div_le_div_iff₀ hDpos hP2]
    have e4 : 0 ≤ P * a + P - 2 := by nlinarith
    calc _ ≤ (P * a + P - 2) * L * W * (2 - P) := by gcongr
      _ = (P * a + P - 2) * L * ((2 - P) * W) := by ring
      _ ≤ _ := by gcongr
  have q3 := h.err (S / D)
  have q4 := mul_le_mul_of_nonneg_left q1 hu.le
  have q5 : fl (S / D) - T / W = (fl (S / D) - S / D) + (S / D - T / W) := by ring
  rw [q5]
  refine (abs_add_le _ _).trans ?_
  have q6 : ulp p * (P * a * L / (2 - P)) + (P * a + P - 2) * L / (2 - P)
      = ((1 + ulp p) * a * P / (2 - P) - 1) * L := by
    field_simp
    ring
  have q7 : (1 + ulp p) * a * P / (2 - P) ≤ 1 + 2 * e + 5 * x := factor_bound hu hun hnu he hP1 hPx
  have q8 := mul_le_mul_of_nonneg_right q7 hL
  linarith

/-! ### Relative errors -/

theorem rel_trans {x y z c d : ℝ} (h1 : |x - y| ≤ (c - 1) * y) (h2 : |z - x| ≤ (d - 1) * x) (hd : 1 ≤ d) :
    |z - y| ≤ (c * d - 1) * y := by
  have h3 := (abs_le.1 h1).2
  have h4 : (d - 1) * x ≤ (d - 1) * (c * y) := mul_le_mul_of_nonneg_left (by linarith) (by linarith)
  have : z - y = (z - x) + (x - y) := by ring
  rw [this]
  refine (abs_add_le _ _).trans ?_
  linarith

theorem rel_exp {x y d : ℝ} (h : |x - y| ≤ d) : |Real.exp x - Real.exp y| ≤ (Real.exp d - 1) * Real.exp y := by
  have hb := abs_le.1 h
  have hy := Real.exp_pos y
  have e1 : Real.exp x = Real.exp (x - y) * Real.exp y := by rw [← Real.exp_add]; ring_nf
  have e2 : Real.exp (x - y) ≤ Real.exp d := Real.exp_le_exp.2 hb.2
  have e3 : Real.exp (-d) ≤ Real.exp (x - y) := Real.exp_le_exp.2 hb.1
  have e4 : 2 - Real.exp d ≤ Real.exp (-d) := by
    rw [Real.exp_neg]
    have hd := Real.exp_pos d
    rw [← mul_le_mul_iff_left₀ hd, inv_mul_cancel₀ hd.ne']
    nlinarith [sq_nonneg (Real.exp d - 1)]
  rw [e1, abs_le]
  constructor <;> nlinarith

theorem rel_prob {x y c : ℝ} (hx : 0 < x) (hy : 0 < y) (h : |x - y| ≤ (c - 1) * y) :
    |x / (1 + x) - y / (1 + y)| ≤ (c - 1) * (y / (1 + y)) := by
  have e1 : x / (1 + x) - y / (1 + y) = (x - y) / ((1 + x) * (1 + y)) := by
    field_simp
    ring
  rw [e1, abs_div, abs_of_pos (by positivity : 0 < (1 + x) * (1 + y)), ← mul_div_assoc,
    div_le_div_iff₀ (by positivity) (by positivity)]
  have h0 : 0 ≤ (c - 1) * y := (abs_nonneg _).trans h
  calc |x - y| * (1 + y) ≤ (c - 1) * y * (1 + y) := by gcongr
    _ ≤ (c - 1) * y * ((1 + x) * (1 + y)) := by
      apply mul_le_mul_of_nonneg_left _ h0
      nlinarith

theorem zipWith_zip_sum (t : ℝ → ℝ) (ws xs : List ℝ) :
    ((ws.zip xs).map fun q => q.1 * t q.2).sum = (List.zipWith (fun w x => w * t x) ws xs).sum := by
  rw [List.zip_eq_zipWith, List.map_zipWith]

theorem fst_zip {ws xs : List ℝ} (hl : ws.length = xs.length) : (ws.zip xs).map Prod.fst = ws := by
  rw [List.map_fst_zip]
  omega

theorem log_le_of_between {M v : ℝ} (h1 : 1 / M ≤ v) (h2 : v ≤ M) (hM : 1 ≤ M) : 0 < v ∧ |Real.log v| ≤ Real.log M := by
  have hM0 : 0 < M := by linarith
  have hv : 0 < v := (by positivity : 0 < 1 / M).trans_le h1
  refine ⟨hv, abs_le.2 ⟨?_, Real.log_le_log hv h2⟩⟩
  rw [← Real.log_inv]
  exact Real.log_le_log (by positivity) (by simpa using h1)

/-- The arithmetic after the weights are settled. -/
theorem geo_core (h : RoundsTo p fl) {order : ℕ → SumOrder ℕ} (ho : OrderOf order) {e M : ℝ} {lg ex : ℝ → ℝ}
    (hlg : ComputesLog e lg) (hex : ComputesExp p e ex) (he : 0 ≤ e) (he1 : e < 1) (hM : 1 ≤ M)
    {ws vs : List ℝ} (hl : ws.length = vs.length) (hw : ∀ w ∈ ws, 0 ≤ w) (hW : 0 < ws.sum)
    (hv : ∀ v ∈ vs, 1 / M ≤ v ∧ v ≤ M) {n : ℕ} (hn : ws.length ≤ n) (hnu : n * ulp p ≤ (1 / 100000 : ℝ)) :
    ∃ m, npAverageFl fl order ws (vs.map lg) = .ok m ∧ 0 < ex m ∧ IsFloat p (ex m) ∧
      |ex m - wgeo ws vs| ≤ (M ^ (2 * e + 5 * (n * ulp p)) * (1 + e) - 1) * wgeo ws vs := by
  have hM0 : 0 < M := by linarith
  obtain ⟨m, hm, hb⟩ := npAverageFl_err h ho he lg Real.log (Real.log_nonneg hM) hl hw hW
    (fun v hv' => by
      obtain ⟨b1, b2⟩ := log_le_of_between (hv v hv').1 (hv v hv').2 hM
      exact ⟨hlg v b1, b2⟩) hn hnu
  have hg : wgeo ws vs = Real.exp ((List.zipWith (fun w x => w * Real.log x) ws vs).sum / ws.sum) := by
    rw [wgeo_eq _ _ fun v hv' => (log_le_of_between (hv v hv').1 (hv v hv').2 hM).1, zipWith_zip_sum, fst_zip hl]
  obtain ⟨x1, x2⟩ := hex m
  refine ⟨m, hm, ?_, x2, ?_⟩
  · have := (abs_le.1 x1).1
    nlinarith [Real.exp_pos m]
  · rw [hg]
    have := rel_trans (z := ex m) (d := 1 + e) (rel_exp hb) (by simpa using x1) (by linarith)
    rw [Real.rpow_def_of_pos hM0, mul_comm (Real.log M)]
    exact this

end Verif
