import Verif.Lemmas.FloatGeo
import Mathlib.Analysis.SpecialFunctions.Exponential
import Mathlib.Analysis.Complex.ExponentialBounds

/-!
# Geometric means and pooled odds in floating-point arithmetic (C154)

`fl` is any correct rounding to `p` binary digits (53 for a Python float), `lg` and `ex` are the computed logarithm and
exponential, with a relative error of at most `e`.  The order of the additions is any tree over the places of the array.
`wgeo` of `Spec/Geo` is the exact weighted geometric mean.  Values are between `1 / M` and `M`.
-/

namespace Verif

open Spec

variable {p : ℕ} {fl lg ex : ℝ → ℝ} {order : ℕ → SumOrder ℕ} {e M : ℝ}

/-- The outcome for processed weights and values. -/
theorem geomeanFl_of {w : FlWeights ℝ} {vals ws vs : List ℝ} {m : ℝ} (hp : processFl fl w vals = .ok (ws, vs))
    (hv : ∀ v ∈ vs, 0 < v) (hm : npAverageFl fl order ws (vs.map lg) = .ok m) :
    geomeanFl fl lg ex order w vals = .ok (ex m) := by
  unfold geomeanFl
  rw [hp]
  simp only [Bind.bind, Except.bind]
  rw [if_neg]
  · rw [hm]
  · rintro ⟨v, hv', hle⟩
    exact absurd (hv v hv') (not_lt.2 hle)

theorem filter_sum : ∀ l : List (ℝ × ℝ), ((l.filter fun x => x.1 ≠ 0).map Prod.fst).sum = (l.map Prod.fst).sum := by
  intro l
  induction l with
  | nil => rfl
  | cons a l ih =>
    by_cases h : a.1 = 0
    · rw [List.filter_cons_of_neg (by simp [h]), ih]
      simp [h]
    · rw [List.filter_cons_of_pos (by simp [h])]
      simp only [List.map_cons, List.sum_cons, ih]

/-- The accuracy for weights that are kept or dropped. -/
theorem geo_filtered (h : RoundsTo p fl) (ho : OrderOf order) (hlg : ComputesLog e lg) (hex : ComputesExp p e ex)
    (he : 0 ≤ e) (he1 : e < 1) (hM : 1 ≤ M) {w : FlWeights ℝ} {ws vals : List ℝ} (hl : ws.length = vals.length)
    (hw : ∀ w ∈ ws, 0 ≤ w) (hW : 0 < ws.sum) (hv : ∀ v ∈ vals, 1 / M ≤ v ∧ v ≤ M)
    (hnu : vals.length * ulp p ≤ (1 / 100000 : ℝ))
    (hp : processFl fl w vals = .ok (((ws.zip vals).filter (fun x => x.1 ≠ 0)).map Prod.fst,
      ((ws.zip vals).filter (fun x => x.1 ≠ 0)).map Prod.snd)) :
    ∃ g, geomeanFl fl lg ex order w vals = .ok g ∧ 0 < g ∧ IsFloat p g ∧
      |g - wgeo ws vals| ≤ (M ^ (2 * e + 5 * (vals.length * ulp p)) * (1 + e) - 1) * wgeo ws vals := by
  have hs := filter_sum (ws.zip vals)
  rw [fst_zip hl] at hs
  have hmem : ∀ v ∈ ((ws.zip vals).filter (fun x => x.1 ≠ 0)).map Prod.snd, v ∈ vals := by
    intro v hv'
    obtain ⟨x, hx, rfl⟩ := List.mem_map.1 hv'
    exact (List.of_mem_zip (List.mem_of_mem_filter hx)).2
  obtain ⟨m, h1, h2, h3, h4⟩ := geo_core h ho hlg hex he he1 hM
    (ws := ((ws.zip vals).filter (fun x => x.1 ≠ 0)).map Prod.fst)
    (vs := ((ws.zip vals).filter (fun x => x.1 ≠ 0)).map Prod.snd) (by simp)
    (fun x hx => by
      obtain ⟨y, hy, rfl⟩ := List.mem_map.1 hx
      exact hw _ (List.of_mem_zip (List.mem_of_mem_filter hy)).1)
    (by rw [hs]; exact hW) (fun v hv' => hv v (hmem v hv')) (n := vals.length)
    (by
      rw [List.length_map]
      refine (List.length_filter_le _ _).trans ?_
      rw [List.length_zip]
      exact min_le_right _ _) hnu
  rw [wgeo_filter] at h4
  exact ⟨_, geomeanFl_of hp (fun v hv' => (log_le_of_between (hv v (hmem v hv')).1 (hv v (hmem v hv')).2 hM).1) h1,
    h2, h3, h4⟩

/-- **C154**: the geometric mean of `n` numbers between `1 / M` and `M`, with weights that are not negative and sum to
nearly 1, differs from the exact weighted geometric mean at most by the factor `M ^ (2 * e + 5 * n * u) * (1 + e)`, with
`u = 2 ^ -p` the rounding unit. -/
theorem C154_weights (h : RoundsTo p fl) (hp : 1 ≤ p) (ho : OrderOf order) (hlg : ComputesLog e lg)
    (hex : ComputesExp p e ex) (he : 0 ≤ e) (he1 : e < 1) (hM : 1 ≤ M) {ws vals : List ℝ}
    (hl : ws.length = vals.length) (hw : ∀ w ∈ ws, 0 ≤ w) (hlo : 9901 / 10000 ≤ ws.sum) (hhi : ws.sum ≤ 10099 / 10000)
    (hv : ∀ v ∈ vals, 1 / M ≤ v ∧ v ≤ M) (hnu : vals.length * ulp p ≤ (1 / 100000 : ℝ)) :
    ∃ g, geomeanFl fl lg ex order (.weights ws) vals = .ok g ∧ 0 < g ∧
      |g - wgeo ws vals| ≤ (M ^ (2 * e + 5 * (vals.length * ulp p)) * (1 + e) - 1) * wgeo ws vals := by
  obtain ⟨g, h1, h2, -, h4⟩ := geo_filtered h ho hlg hex he he1 hM hl hw (by linarith) hv hnu
    (C116_accepted h hp hl hw hlo hhi hnu)
  exact ⟨g, h1, h2, h4⟩

/-- Equal weights. -/
theorem wgeo_replicate {c : ℝ} (hc : 0 < c) (vals : List ℝ) (hpos : ∀ v ∈ vals, 0 < v) :
    wgeo (List.replicate vals.length c) vals = vals.prod ^ (1 / (vals.length : ℝ)) := by
  have h1 : List.replicate vals.length c = (List.replicate vals.length (1 : ℝ)).map (· / c⁻¹) := by simp
  rw [h1, wgeo_scale_weights _ _ _ (by positivity) hpos, wgeo, fst_zip (by simp)]
  congr 1
  · congr 1
    clear hpos h1
    induction vals with
    | nil => rfl
    | cons a l ih => simp [List.replicate_succ, ih]
  · simp

/-- **C154**: without weights, the exact value is the `n`-th root of the product of the `n` numbers. -/
theorem C154_unweighted (h : RoundsTo p fl) (hp : 1 ≤ p) (ho : OrderOf order) (hlg : ComputesLog e lg)
    (hex : ComputesExp p e ex) (he : 0 ≤ e) (he1 : e < 1) (hM : 1 ≤ M) {vals : List ℝ} (hne : vals ≠ [])
    (hv : ∀ v ∈ vals, 1 / M ≤ v ∧ v ≤ M) (hnu : vals.length * ulp p ≤ (1 / 100000 : ℝ)) :
    ∃ g, geomeanFl fl lg ex order .absent vals = .ok g ∧ 0 < g ∧
      |g - vals.prod ^ (1 / (vals.length : ℝ))| ≤
        (M ^ (2 * e + 5 * (vals.length * ulp p)) * (1 + e) - 1) * vals.prod ^ (1 / (vals.length : ℝ)) := by
  have hn : 0 < vals.length := List.length_pos_iff.2 hne
  have hn' : (0 : ℝ) < vals.length := by exact_mod_cast hn
  have hc : 0 < fl (1 / (vals.length : ℝ)) := h.pos hp (by positivity)
  have hpos : ∀ v ∈ vals, 0 < v := fun v hv' => (log_le_of_between (hv v hv').1 (hv v hv').2 hM).1
  obtain ⟨m, h1, h2, -, h4⟩ := geo_core h ho hlg hex he he1 hM
    (ws := List.replicate vals.length (fl (1 / (vals.length : ℝ)))) (vs := vals) (by simp)
    (fun x hx => by rw [List.eq_of_mem_replicate hx]; exact hc.le)
    (by rw [List.sum_replicate, nsmul_eq_mul]; positivity) hv (n := vals.length) (by simp) hnu
  rw [wgeo_replicate hc _ hpos] at h4
  exact ⟨_, geomeanFl_of (C116_default h hp hne hnu).1 hpos h1, h2, h4⟩

/-- Weights that are nearly proportional to others. -/
theorem weights_close {t L W : ℝ} (f : ℝ → ℝ) :
    ∀ ws nw xs : List ℝ, List.Forall₂ (fun x w => |w - x / W| ≤ t * (x / W)) ws nw → ws.length = xs.length →
      (∀ w ∈ ws, 0 ≤ w) → (∀ x ∈ xs, |f x| ≤ L) →
      |(List.zipWith (fun w x => w * f x) nw xs).sum - (List.zipWith (fun w x => w * f x) ws xs).sum / W|
          ≤ t * L * (ws.sum / W) ∧ |nw.sum - ws.sum / W| ≤ t * (ws.sum / W) ∧
        |(List.zipWith (fun w x => w * f x) ws xs).sum| ≤ L * ws.sum := by
  intro ws nw xs h
  induction h generalizing xs with
  | nil => intro _ _ _; simp
  | @cons w w' ws nw h1 _ ih =>
    intro hl hw hx
    rcases xs with _ | ⟨x, xs⟩
    · simp at hl
    obtain ⟨i1, i2, i3⟩ := ih xs (by simpa using hl) (fun v hv => hw v (by simp [hv])) (fun v hv => hx v (by simp [hv]))
    have a2 := hx x (by simp)
    have hw0 := hw w (by simp)
    simp only [List.zipWith_cons_cons, List.sum_cons, add_div]
    refine ⟨?_, ?_, ?_⟩
    · have e1 : w' * f x + (List.zipWith (fun w x => w * f x) nw xs).sum -
          (w * f x / W + (List.zipWith (fun w x => w * f x) ws xs).sum / W) =
          (w' - w / W) * f x + ((List.zipWith (fun w x => w * f x) nw xs).sum -
            (List.zipWith (fun w x => w * f x) ws xs).sum / W) := by ring
      rw [e1]
      refine (abs_add_le _ _).trans ?_
      rw [abs_mul]
      have := mul_le_mul h1 a2 (abs_nonneg _) ((abs_nonneg _).trans h1)
      linarith
    · rw [add_sub_add_comm]
      refine (abs_add_le _ _).trans ?_
      linarith
    · refine (abs_add_le _ _).trans ?_
      rw [abs_mul, abs_of_nonneg hw0]
      have := mul_le_mul_of_nonneg_left a2 hw0
      linarith

/-- **C154**: with relative weights, whatever their sum, the factor is `M ^ (2 * e + 14 * n * u) * (1 + e)`. -/
theorem C154_relative (h : RoundsTo p fl) (hp : 1 ≤ p) (ho : OrderOf order) (hlg : ComputesLog e lg)
    (hex : ComputesExp p e ex) (he : 0 ≤ e) (he1 : e < 1) (hM : 1 ≤ M) {ws vals : List ℝ}
    (hl : ws.length = vals.length) (hw : ∀ w ∈ ws, 0 ≤ w ∧ IsFloat p w) (hpos : 0 < ws.sum)
    (hv : ∀ v ∈ vals, 1 / M ≤ v ∧ v ≤ M) (hnu : vals.length * ulp p ≤ (1 / 100000 : ℝ)) :
    ∃ g, geomeanFl fl lg ex order (.relative ws) vals = .ok g ∧ 0 < g ∧
      |g - wgeo ws vals| ≤ (M ^ (2 * e + 14 * (vals.length * ulp p)) * (1 + e) - 1) * wgeo ws vals := by
  have hM0 : 0 < M := by linarith
  have hvpos : ∀ v ∈ vals, 0 < v := fun v hv' => (log_le_of_between (hv v hv').1 (hv v hv').2 hM).1
  obtain ⟨nw, e1, e2, e3, e4, e5⟩ := C115_normalize h hp hw hpos (by rw [hl]; exact hnu.trans (by norm_num))
  rw [hl] at e4 e5
  have hne : vals ≠ [] := by
    rintro rfl
    rw [List.length_eq_zero_iff.1 hl] at hpos
    simp at hpos
  have hl' : nw.length = vals.length := e2.trans hl
  have hnw : ∀ w ∈ nw, 0 ≤ w := fun w hw' => (e3 w hw').1
  have hk := keepPositive_eq nw vals hl'
  rw [if_pos hnw] at hk
  have hproc : processFl fl (.relative ws) vals = .ok (((nw.zip vals).filter (fun x => x.1 ≠ 0)).map Prod.fst,
      ((nw.zip vals).filter (fun x => x.1 ≠ 0)).map Prod.snd) := by
    unfold processFl
    rw [if_neg hne]
    simp only [e1, Bind.bind, Except.bind]
    rw [if_neg (fun hc => hc hl'), hk]
  set x : ℝ := vals.length * ulp p with hx
  have hx0 : 0 ≤ x := mul_nonneg (Nat.cast_nonneg _) (ulp_pos p).le
  have b := abs_le.1 e5
  have hN : 0 < nw.sum := by linarith
  obtain ⟨g, h1, h2, -, h4⟩ := geo_filtered h ho hlg hex he he1 hM hl' hnw hN hv hnu hproc
  refine ⟨g, h1, h2, ?_⟩
  set L := Real.log M with hLd
  have hL : 0 ≤ L := Real.log_nonneg hM
  obtain ⟨c1, c2, c3⟩ := weights_close (t := 4 * x) (W := ws.sum) (L := L) Real.log ws nw vals e4 hl
    (fun w hw' => (hw w hw').1) (fun v hv' => (log_le_of_between (hv v hv').1 (hv v hv').2 hM).2)
  have hA : |(List.zipWith (fun w x => w * Real.log x) nw vals).sum / nw.sum -
      (List.zipWith (fun w x => w * Real.log x) ws vals).sum / ws.sum| ≤ 9 * x * L := by
    set A := (List.zipWith (fun w x => w * Real.log x) ws vals).sum / ws.sum with hAd
    set S := (List.zipWith (fun w x => w * Real.log x) nw vals).sum
    rw [div_self hpos.ne', mul_one] at c1 c2
    have hA' : |A| ≤ L := by
      rw [hAd, abs_div, abs_of_pos hpos, div_le_iff₀ hpos]
      exact c3
    have f1 : S / nw.sum - A = ((S - A) + A * (1 - nw.sum)) / nw.sum := by
      field_simp
      ring
    rw [f1, abs_div, abs_of_pos hN, div_le_iff₀ hN]
    refine (abs_add_le _ _).trans ?_
    rw [abs_mul, abs_sub_comm 1]
    have f2 := mul_le_mul hA' c2 (abs_nonneg _) hL
    have f3 : 8 * x * L ≤ 9 * x * L * nw.sum := by
      have : 8 * (x * L) ≤ 9 * (x * L) * nw.sum := by
        have := mul_nonneg hx0 hL
        nlinarith
      linarith
    linarith
  have hr := rel_exp hA
  have g1 : Real.exp ((List.zipWith (fun w x => w * Real.log x) nw vals).sum / nw.sum) = wgeo nw vals := by
    rw [wgeo_eq _ _ hvpos, zipWith_zip_sum, fst_zip hl']
  have g2 : Real.exp ((List.zipWith (fun w x => w * Real.log x) ws vals).sum / ws.sum) = wgeo ws vals := by
    rw [wgeo_eq _ _ hvpos, zipWith_zip_sum, fst_zip hl]
  rw [g1, g2] at hr
  have hone : 1 ≤ M ^ (2 * e + 5 * x) * (1 + e) := by
    have := Real.one_le_rpow hM (z := 2 * e + 5 * x) (by linarith)
    nlinarith
  have key := rel_trans hr h4 hone
  have e6 : Real.exp (9 * x * L) * (M ^ (2 * e + 5 * x) * (1 + e)) = M ^ (2 * e + 14 * x) * (1 + e) := by
    rw [← mul_assoc, Real.rpow_def_of_pos hM0, Real.rpow_def_of_pos hM0, ← Real.exp_add]
    congr 2
    rw [← hLd]
    ring
  rw [e6] at key
  exact key

/-! ### Raising values -/

theorem getD_le {xs ys : List ℝ} (h : List.Forall₂ (· ≤ ·) xs ys) (i : ℕ) : xs.getD i 0 ≤ ys.getD i 0 := by
  induction h generalizing i with
  | nil => simp
  | cons h1 _ ih =>
    cases i with
    | zero => simpa using h1
    | succ i => simpa using ih i

theorem addUpFl_mono (h : RoundsTo p fl) {xs ys : List ℝ} (hxy : List.Forall₂ (· ≤ ·) xs ys) :
    addUpFl fl order xs ≤ addUpFl fl order ys := by
  unfold addUpFl
  rw [hxy.length_eq]
  exact sumFl_mono h _ _ _ fun i _ => getD_le hxy i

theorem products_mono (h : RoundsTo p fl) {f : ℝ → ℝ} (hf : ∀ x y, 0 < x → x ≤ y → f x ≤ f y) :
    ∀ ws vs vs' : List ℝ, (∀ w ∈ ws, 0 ≤ w) → (∀ v ∈ vs, 0 < v) → List.Forall₂ (· ≤ ·) vs vs' →
      List.Forall₂ (· ≤ ·)
        (List.zipWith (fun w x => fl (w * x)) (((ws.zip vs).filter (fun x => x.1 ≠ 0)).map Prod.fst)
          ((((ws.zip vs).filter (fun x => x.1 ≠ 0)).map Prod.snd).map f))
        (List.zipWith (fun w x => fl (w * x)) (((ws.zip vs').filter (fun x => x.1 ≠ 0)).map Prod.fst)
          ((((ws.zip vs').filter (fun x => x.1 ≠ 0)).map Prod.snd).map f)) := by
  intro ws vs vs' hw hv hvv
  induction hvv generalizing ws with
  | nil => simp
  | @cons v v' vs vs' h1 _ ih =>
    rcases ws with _ | ⟨w, ws⟩
    · simp
    have := ih ws (fun x hx => hw x (by simp [hx])) (fun x hx => hv x (by simp [hx]))
    by_cases hw0 : w = 0
    · simpa [hw0] using this
    · simp only [List.zip_cons_cons]
      rw [List.filter_cons_of_pos (by simp [hw0]), List.filter_cons_of_pos (by simp [hw0])]
      simp only [List.map_cons, List.zipWith_cons_cons]
      exact .cons (h.mono (mul_le_mul_of_nonneg_left (hf _ _ (hv v (by simp)) h1) (hw w (by simp)))) this

theorem weights_kept : ∀ ws vs vs' : List ℝ, vs.length = vs'.length →
    ((ws.zip vs).filter (fun x => x.1 ≠ 0)).map Prod.fst = ((ws.zip vs').filter (fun x => x.1 ≠ 0)).map Prod.fst := by
  intro ws
  induction ws with
  | nil => intro _ _ _; simp
  | cons w ws ih =>
    intro vs vs' hl
    rcases vs with _ | ⟨v, vs⟩ <;> rcases vs' with _ | ⟨v', vs'⟩
    · simp
    · simp at hl
    · simp at hl
    · have := ih vs vs' (by simpa using hl)
      by_cases hw0 : w = 0
      · simpa [hw0] using this
      · simp only [List.zip_cons_cons]
        rw [List.filter_cons_of_pos (by simp [hw0]), List.filter_cons_of_pos (by simp [hw0])]
        simp only [List.map_cons, this]

/-- **C154**: raising values never lowers the computed geometric mean, if the computed logarithm and exponential never
decrease. -/
theorem C154_monotone (h : RoundsTo p fl) (hp : 1 ≤ p) (hlg : ∀ x y, 0 < x → x ≤ y → lg x ≤ lg y) (hex : Monotone ex)
    (ho : OrderOf order) {ws vals vals' : List ℝ} (hl : ws.length = vals.length) (hw : ∀ w ∈ ws, 0 ≤ w)
    (hlo : 9901 / 10000 ≤ ws.sum) (hhi : ws.sum ≤ 10099 / 10000) (hnu : vals.length * ulp p ≤ (1 / 100000 : ℝ))
    (hv : ∀ v ∈ vals, 0 < v) (hvv : List.Forall₂ (· ≤ ·) vals vals') :
    ∃ g g', geomeanFl fl lg ex order (.weights ws) vals = .ok g ∧
      geomeanFl fl lg ex order (.weights ws) vals' = .ok g' ∧ g ≤ g' := by
  have hl' : ws.length = vals'.length := hl.trans hvv.length_eq
  have hv' : ∀ v ∈ vals', 0 < v := by
    clear hl hl' hnu
    induction hvv with
    | nil => simp
    | cons h1 _ ih =>
      intro v hv'
      rcases List.mem_cons.1 hv' with rfl | hv'
      · exact (hv _ (by simp)).trans_le h1
      · exact ih (fun x hx => hv x (by simp [hx])) v hv'
  have p1 := C116_accepted h hp hl hw hlo hhi hnu
  have p2 := C116_accepted h hp hl' hw hlo hhi (by rw [← hvv.length_eq]; exact hnu)
  have hmem : ∀ vals : List ℝ, ∀ v ∈ ((ws.zip vals).filter (fun x => x.1 ≠ 0)).map Prod.snd, v ∈ vals := by
    intro vals v hv'
    obtain ⟨x, hx, rfl⟩ := List.mem_map.1 hv'
    exact (List.of_mem_zip (List.mem_of_mem_filter hx)).2
  have hprod := products_mono h hlg ws vals vals' hw hv hvv
  have hk := weights_kept ws vals vals' hvv.length_eq
  have hD : 0 < addUpFl fl order (((ws.zip vals).filter (fun x => x.1 ≠ 0)).map Prod.fst) := by
    set k := ((ws.zip vals).filter (fun x => x.1 ≠ 0)).map Prod.fst with hkd
    have hs : k.sum = ws.sum := by
      rw [hkd, filter_sum, fst_zip hl]
    have hne : k ≠ [] := by
      intro h0
      rw [h0] at hs
      simp only [List.sum_nil] at hs
      linarith
    have hkw : ∀ w ∈ k, 0 ≤ w := by
      intro w hw'
      obtain ⟨x, hx, rfl⟩ := List.mem_map.1 hw'
      exact hw _ (List.of_mem_zip (List.mem_of_mem_filter hx)).1
    have hkl : k.length ≤ vals.length := by
      rw [hkd, List.length_map]
      refine (List.length_filter_le _ _).trans ?_
      rw [List.length_zip]
      exact min_le_right _ _
    have hd := addUpFl_err h ho hne hkl
    have habs : k.map abs = k := by
      conv_rhs => rw [← List.map_id k]
      exact List.map_congr_left fun w hw' => abs_of_nonneg (hkw w hw')
    rw [habs] at hd
    have hP := pow_le_inv (ulp_pos (K := ℝ) p) (n := vals.length) (by linarith)
    have hP1 : (1 : ℝ) ≤ (1 + ulp p) ^ vals.length := one_le_pow₀ (by linarith [ulp_pos (K := ℝ) p])
    have := (abs_le.1 hd).1
    have hP2 : (1 + ulp p : ℝ) ^ vals.length ≤ 3 / 2 := by nlinarith
    nlinarith
  have avg : ∀ xs : List ℝ, npAverageFl fl order (((ws.zip vals).filter (fun x => x.1 ≠ 0)).map Prod.fst) xs =
      .ok (fl (addUpFl fl order (List.zipWith (fun w x => fl (w * x))
        (((ws.zip vals).filter (fun x => x.1 ≠ 0)).map Prod.fst) xs) /
          addUpFl fl order (((ws.zip vals).filter (fun x => x.1 ≠ 0)).map Prod.fst))) := by
    intro xs
    unfold npAverageFl
    rw [if_neg hD.ne']
  rw [← hk] at p2 hprod
  exact ⟨_, _, geomeanFl_of p1 (fun v hv'' => hv v (hmem _ v hv'')) (avg _),
    geomeanFl_of p2 (fun v hv'' => hv' v (hmem _ v hv'')) (avg _),
    hex (h.mono (div_le_div_of_nonneg_right (addUpFl_mono h hprod) hD.le))⟩

/-! ### Pooled odds -/

theorem pToOddsListFl_ok (h : RoundsTo p fl) (hp : 6 ≤ p) : ∀ ps : List ℝ, (∀ q ∈ ps, 0 < q ∧ q < 1) →
    ∃ os, pToOddsListFl fl ps = .ok os ∧
      List.Forall₂ (fun q o => 0 < o ∧ |o - q / (1 - q)| ≤ 3 * ulp p * (q / (1 - q))) ps os := by
  intro ps
  induction ps with
  | nil => intro _; exact ⟨[], rfl, .nil⟩
  | cons q ps ih =>
    intro hq
    obtain ⟨os, h1, h2⟩ := ih fun x hx => hq x (by simp [hx])
    obtain ⟨o, h3, h4, h5⟩ := C118_odds h hp (hq q (by simp)).1 (hq q (by simp)).2
    refine ⟨o :: os, ?_, .cons ⟨h4, h5⟩ h2⟩
    unfold pToOddsListFl
    rw [h3, h1]
    rfl

/-- Values that are nearly the same have nearly the same geometric mean. -/
theorem wgeo_close {c : ℝ} (hc0 : 0 ≤ c) (hc : c < 1) {ws os os' : List ℝ}
    (hl : ws.length = os.length) (hw : ∀ w ∈ ws, 0 ≤ w) (hW : 0 < ws.sum) (hpos : ∀ o ∈ os, 0 < o)
    (h : List.Forall₂ (fun o o' => |o' - o| ≤ c * o) os os') :
    |wgeo ws os' - wgeo ws os| ≤ (1 + c - 1) * wgeo ws os := by
  have hl2 := h.length_eq
  set l := ws.zip (os.zip os') with hld
  have m1 : l.map (·.1) = ws := by
    rw [hld]
    refine (List.map_fst_zip ?_)
    rw [List.length_zip]
    omega
  have m2 : l.map (·.2) = os.zip os' := by
    rw [hld]
    refine (List.map_snd_zip ?_)
    rw [List.length_zip]
    omega
  have m3 : l.map (·.2.1) = os := by
    have : l.map (·.2.1) = (l.map (·.2)).map Prod.fst := by rw [List.map_map]; rfl
    rw [this, m2]
    exact List.map_fst_zip (by omega)
  have m4 : l.map (·.2.2) = os' := by
    have : l.map (·.2.2) = (l.map (·.2)).map Prod.snd := by rw [List.map_map]; rfl
    rw [this, m2]
    exact List.map_snd_zip (by omega)
  have hmem : ∀ t ∈ l, 0 ≤ t.1 ∧ 0 < t.2.1 ∧ |t.2.2 - t.2.1| ≤ c * t.2.1 := by
    intro t ht
    have h1 := List.of_mem_zip (show (t.1, t.2) ∈ ws.zip (os.zip os') from ht)
    have h2 := List.of_mem_zip (show (t.2.1, t.2.2) ∈ os.zip os' from h1.2)
    exact ⟨hw _ h1.1, hpos _ h2.1, (List.forall₂_iff_zip.1 h).2 h1.2⟩
  have hs : ((ws.zip os).map Prod.fst).sum ≠ 0 := by
    rw [fst_zip hl]
    exact hW.ne'
  have u := wgeo_mono (l.map fun t => (t.1, t.2.2, (1 + c) * t.2.1))
    (by
      intro t ht
      obtain ⟨s, hs', rfl⟩ := List.mem_map.1 ht
      exact (hmem s hs').1)
    (by
      intro t ht
      obtain ⟨s, hs', rfl⟩ := List.mem_map.1 ht
      obtain ⟨-, a2, a3⟩ := hmem s hs'
      have := (abs_le.1 a3).1
      simp only
      nlinarith)
    (by
      intro t ht
      obtain ⟨s, hs', rfl⟩ := List.mem_map.1 ht
      obtain ⟨-, a2, a3⟩ := hmem s hs'
      have := (abs_le.1 a3).2
      simp only
      linarith)
  have d := wgeo_mono (l.map fun t => (t.1, (1 - c) * t.2.1, t.2.2))
    (by
      intro t ht
      obtain ⟨s, hs', rfl⟩ := List.mem_map.1 ht
      exact (hmem s hs').1)
    (by
      intro t ht
      obtain ⟨s, hs', rfl⟩ := List.mem_map.1 ht
      exact mul_pos (by linarith) (hmem s hs').2.1)
    (by
      intro t ht
      obtain ⟨s, hs', rfl⟩ := List.mem_map.1 ht
      obtain ⟨-, a2, a3⟩ := hmem s hs'
      have := (abs_le.1 a3).1
      simp only
      linarith)
  simp only [List.map_map, Function.comp_def] at u d
  have k1 : l.map (fun t => (1 + c) * t.2.1) = os.map ((1 + c) * ·) := by rw [← m3, List.map_map]; rfl
  have k2 : l.map (fun t => (1 - c) * t.2.1) = os.map ((1 - c) * ·) := by rw [← m3, List.map_map]; rfl
  rw [m1, m4, k1, wgeo_mul _ _ _ (by linarith) hpos hs] at u
  rw [m1, m4, k2, wgeo_mul _ _ _ (by linarith) hpos hs] at d
  rw [abs_le]
  constructor <;> linarith

/-- Pooling, after the weights are settled. -/
theorem odds_core (h : RoundsTo p fl) (hp : 6 ≤ p) (ho : OrderOf order) (hlg : ComputesLog e lg)
    (hex : ComputesExp p e ex) (he : 0 ≤ e) (he1 : e < 1) (hM : 1 ≤ M) {w : FlWeights ℝ} {vals ws ps : List ℝ}
    (hproc : processFl fl w vals = .ok (ws, ps)) (hl : ws.length = ps.length) (h2 : 2 ≤ ps.length)
    (hw : ∀ w ∈ ws, 0 < w) (hlo : 9901 / 10000 ≤ ws.sum) (hhi : ws.sum ≤ 10099 / 10000)
    (hq : ∀ q ∈ ps, 0 < q ∧ q < 1 ∧ 1 / M ≤ q / (1 - q) ∧ q / (1 - q) ≤ M)
    {n : ℕ} (hn : ps.length ≤ n) (hnu : n * ulp p ≤ (1 / 100000 : ℝ)) :
    ∃ r, geomeanOddsFl fl lg ex order w vals = .ok r ∧ 0 < r ∧ r ≤ 1 ∧
      |r - wgeo ws (ps.map fun q => q / (1 - q)) / (1 + wgeo ws (ps.map fun q => q / (1 - q)))| ≤
        ((1 + 3 * ulp p) ^ 2 * (2 * M) ^ (2 * e + 5 * (n * ulp p)) * (1 + e) - 1) *
          (wgeo ws (ps.map fun q => q / (1 - q)) / (1 + wgeo ws (ps.map fun q => q / (1 - q)))) := by
  have hu := ulp_pos (K := ℝ) p
  have hu64 := ulp_le_64 (K := ℝ) hp
  have hM0 : 0 < M := by linarith
  have hps : (ps.length : ℝ) * ulp p ≤ n * ulp p := by
    have : (ps.length : ℝ) ≤ n := by exact_mod_cast hn
    exact mul_le_mul_of_nonneg_right this hu.le
  obtain ⟨os, h3, h4⟩ := pToOddsListFl_ok h hp ps fun q hq' => ⟨(hq q hq').1, (hq q hq').2.1⟩
  have hlo' : ps.length = os.length := h4.length_eq
  have hwo : ws.length = os.length := hl.trans hlo'
  have hacc := C116_accepted h (by omega) hwo (fun w hw' => (hw w hw').le) hlo hhi (by rw [← hlo']; linarith)
  have hosb : ∀ o ∈ os, 1 / (2 * M) ≤ o ∧ o ≤ 2 * M := by
    intro o ho'
    obtain ⟨i, hi, rfl⟩ := List.getElem_of_mem ho'
    have hi' : i < ps.length := by omega
    have a := (List.forall₂_iff_get.1 h4).2 i hi' hi
    simp only [List.get_eq_getElem] at a
    obtain ⟨-, b2, b3, b4⟩ := hq ps[i] (List.getElem_mem hi')
    have c := abs_le.1 a.2
    have hod : 0 < ps[i] / (1 - ps[i]) := (by positivity : 0 < 1 / M).trans_le b3
    constructor
    · have : 1 / (2 * M) = 1 / M / 2 := by field_simp
      rw [this]
      nlinarith
    · nlinarith
  obtain ⟨g, g1, g2, g3, g4⟩ := geo_filtered h ho hlg hex he he1 (M := 2 * M) (by linarith) hwo
    (fun w hw' => (hw w hw').le) (by linarith) hosb (by rw [← hlo']; linarith) hacc
  obtain ⟨r, r1, r2, r3, r4⟩ := C118_prob h hp g2 g3
  refine ⟨r, ?_, r2, r3, ?_⟩
  · unfold geomeanOddsFl
    rw [hproc]
    simp only [Bind.bind, Except.bind, h3]
    rw [if_neg (by omega), g1]
    exact r1
  · set os0 := ps.map fun q => q / (1 - q) with hos0
    have hpos0 : ∀ o ∈ os0, 0 < o := by
      intro o ho'
      obtain ⟨q, hq', rfl⟩ := List.mem_map.1 ho'
      exact div_pos (hq q hq').1 (by linarith [(hq q hq').2.1])
    have hcl := wgeo_close (c := 3 * ulp p) (by linarith) (by linarith) (ws := ws) (os := os0) (os' := os)
      (by simp [hos0, hl]) (fun w hw' => (hw w hw').le) (by linarith) hpos0
      (by
        rw [hos0, List.forall₂_map_left_iff]
        exact h4.imp fun _ _ hh => hh.2)
    have hwpos : 0 < wgeo ws os0 := by
      rw [wgeo_eq _ _ hpos0]
      exact Real.exp_pos _
    have hmono : (2 * M) ^ (2 * e + 5 * (os.length * ulp p)) ≤ (2 * M) ^ (2 * e + 5 * (n * ulp p)) :=
      Real.rpow_le_rpow_of_exponent_le (by linarith) (by rw [← hlo']; linarith)
    have hwp : 0 < wgeo ws os := by
      rw [wgeo_eq]
      · exact Real.exp_pos _
      · intro o ho'
        exact (by positivity : 0 < 1 / (2 * M)).trans_le (hosb o ho').1
    have hone0 : 1 ≤ (2 * M) ^ (2 * e + 5 * (n * ulp p)) :=
      Real.one_le_rpow (by linarith) (by
        have : 0 ≤ (n : ℝ) * ulp p := mul_nonneg (Nat.cast_nonneg _) hu.le
        linarith)
    have g5 : |g - wgeo ws os| ≤ ((2 * M) ^ (2 * e + 5 * (n * ulp p)) * (1 + e) - 1) * wgeo ws os := by
      refine g4.trans (mul_le_mul_of_nonneg_right ?_ hwp.le)
      have := mul_le_mul_of_nonneg_right hmono (by linarith : 0 ≤ 1 + e)
      linarith
    have hone : 1 ≤ (2 * M) ^ (2 * e + 5 * (n * ulp p)) * (1 + e) := by nlinarith
    have k1 := rel_trans hcl g5 hone
    have k2 := rel_prob g2 hwpos k1
    have k3 := rel_trans k2 (z := r) (d := 1 + 3 * ulp p) (by simpa using r4) (by linarith)
    refine k3.trans (le_of_eq ?_)
    ring

/-- **C154**: pooling probabilities with positive weights that sum to nearly 1, with at least two of them: the outcome
is a probability, and within a small factor of the exact one, `g / (1 + g)` with `g` the weighted geometric mean of the
exact odds. -/
theorem C154_odds (h : RoundsTo p fl) (hp : 6 ≤ p) (ho : OrderOf order) (hlg : ComputesLog e lg)
    (hex : ComputesExp p e ex) (he : 0 ≤ e) (he1 : e < 1) (hM : 1 ≤ M) {ws ps : List ℝ}
    (hl : ws.length = ps.length) (h2 : 2 ≤ ps.length) (hw : ∀ w ∈ ws, 0 < w)
    (hlo : 9901 / 10000 ≤ ws.sum) (hhi : ws.sum ≤ 10099 / 10000)
    (hq : ∀ q ∈ ps, 0 < q ∧ q < 1 ∧ 1 / M ≤ q / (1 - q) ∧ q / (1 - q) ≤ M)
    (hnu : ps.length * ulp p ≤ (1 / 100000 : ℝ)) :
    ∃ r, geomeanOddsFl fl lg ex order (.weights ws) ps = .ok r ∧ 0 < r ∧ r ≤ 1 ∧
      |r - wgeo ws (ps.map fun q => q / (1 - q)) / (1 + wgeo ws (ps.map fun q => q / (1 - q)))| ≤
        ((1 + 3 * ulp p) ^ 2 * (2 * M) ^ (2 * e + 5 * (ps.length * ulp p)) * (1 + e) - 1) *
          (wgeo ws (ps.map fun q => q / (1 - q)) / (1 + wgeo ws (ps.map fun q => q / (1 - q)))) := by
  refine odds_core h hp ho hlg hex he he1 hM ?_ hl h2 hw hlo hhi hq le_rfl hnu
  have := C116_accepted h (by omega) hl (fun w hw' => (hw w hw').le) hlo hhi hnu
  have hf : (ws.zip ps).filter (fun x => x.1 ≠ 0) = ws.zip ps := by
    rw [List.filter_eq_self]
    intro x hx
    simpa using (hw _ (List.of_mem_zip hx).1).ne'
  rw [hf, fst_zip hl, List.map_snd_zip (by omega)] at this
  exact this

/-- **C154**: pooling without weights. -/
theorem C154_odds_unweighted (h : RoundsTo p fl) (hp : 6 ≤ p) (ho : OrderOf order) (hlg : ComputesLog e lg)
    (hex : ComputesExp p e ex) (he : 0 ≤ e) (he1 : e < 1) (hM : 1 ≤ M) {ps : List ℝ} (h2 : 2 ≤ ps.length)
    (hq : ∀ q ∈ ps, 0 < q ∧ q < 1 ∧ 1 / M ≤ q / (1 - q) ∧ q / (1 - q) ≤ M)
    (hnu : ps.length * ulp p ≤ (1 / 100000 : ℝ)) {g : ℝ}
    (hg : g = (ps.map fun q => q / (1 - q)).prod ^ (1 / (ps.length : ℝ))) :
    ∃ r, geomeanOddsFl fl lg ex order .absent ps = .ok r ∧ 0 < r ∧ r ≤ 1 ∧
      |r - g / (1 + g)| ≤
        ((1 + 3 * ulp p) ^ 2 * (2 * M) ^ (2 * e + 5 * (ps.length * ulp p)) * (1 + e) - 1) * (g / (1 + g)) := by
  have hne : ps ≠ [] := by rintro rfl; simp at h2
  have hn' : (0 : ℝ) < ps.length := by exact_mod_cast (by omega : 0 < ps.length)
  have hc : 0 < fl (1 / (ps.length : ℝ)) := h.pos (by omega) (by positivity)
  have hu := ulp_le_of_length (by omega) hnu
  have e1 := h.le_mul (x := 1 / (ps.length : ℝ)) (by positivity)
  have e2 := h.ge_mul (x := 1 / (ps.length : ℝ)) (by positivity)
  have e3 : (ps.length : ℝ) * (1 / ps.length) = 1 := by field_simp
  have hpos : ∀ o ∈ ps.map fun q => q / (1 - q), 0 < o := by
    intro o ho'
    obtain ⟨q, hq', rfl⟩ := List.mem_map.1 ho'
    exact div_pos (hq q hq').1 (by linarith [(hq q hq').2.1])
  have key := odds_core h hp ho hlg hex he he1 hM (C116_default h (by omega) hne hnu).1 (by simp) h2
    (fun w hw' => by rw [List.eq_of_mem_replicate hw']; exact hc)
    (by rw [List.sum_replicate, nsmul_eq_mul]; nlinarith) (by rw [List.sum_replicate, nsmul_eq_mul]; nlinarith)
    hq le_rfl hnu
  have hr := wgeo_replicate hc _ hpos
  rw [List.length_map] at hr
  rw [hr, ← hg] at key
  exact key

/-! ### Python floats -/

/-- **C154** (Python floats): the geometric mean of up to 1000 numbers between 1e-9 and 1e9 is off by less than one part
in ten thousand million, if logarithm and exponential are off by at most one unit in the last place. -/
theorem C154_practice (h : RoundsTo 53 fl) (ho : OrderOf order) (hlg : ComputesLog (ulp 52) lg)
    (hex : ComputesExp 53 (ulp 52) ex) {vals : List ℝ} (hne : vals ≠ []) (hn : vals.length ≤ 1000)
    (hv : ∀ v ∈ vals, 1 / 10 ^ 9 ≤ v ∧ v ≤ 10 ^ 9) :
    ∃ g, geomeanFl fl lg ex order .absent vals = .ok g ∧
      |g - vals.prod ^ (1 / (vals.length : ℝ))| ≤ 1 / 10 ^ 10 * vals.prod ^ (1 / (vals.length : ℝ)) := by
  have hn' : (vals.length : ℝ) ≤ 1000 := by exact_mod_cast hn
  obtain ⟨g, h1, -, h3⟩ := C154_unweighted h (by norm_num) ho hlg hex (by unfold ulp; positivity)
    (by unfold ulp; norm_num) (M := 10 ^ 9) (by norm_num) hne hv (by unfold ulp; norm_num; linarith)
  refine ⟨g, h1, h3.trans (mul_le_mul_of_nonneg_right ?_ ?_)⟩
  · have hlog : Real.log (10 ^ 9) ≤ 30 * (7 / 10) := by
      have h2 : Real.log ((10 : ℝ) ^ 9) ≤ Real.log (2 ^ 30) := Real.log_le_log (by positivity) (by norm_num)
      rw [Real.log_pow 2 30] at h2
      have := Real.log_two_lt_d9
      have h3 : ((30 : ℕ) : ℝ) = 30 := by norm_num
      rw [h3] at h2
      exact h2.trans (by linarith)
    have hl0 : 0 ≤ Real.log (10 ^ 9) := Real.log_nonneg (by norm_num)
    have hexp : (2 * ulp 52 + 5 * (vals.length * ulp 53) : ℝ) ≤ 1 / 10 ^ 12 := by
      unfold ulp
      norm_num
      linarith
    have hexp0 : (0 : ℝ) ≤ 2 * ulp 52 + 5 * (vals.length * ulp 53) := by unfold ulp; positivity
    have hd : Real.log (10 ^ 9) * (2 * ulp 52 + 5 * (vals.length * ulp 53)) ≤ 21 / 10 ^ 12 := by
      calc _ ≤ 30 * (7 / 10) * (1 / 10 ^ 12 : ℝ) := mul_le_mul hlog hexp hexp0 (by norm_num)
        _ ≤ _ := by norm_num
    rw [Real.rpow_def_of_pos (by positivity)]
    set d := Real.log (10 ^ 9) * (2 * ulp 52 + 5 * (vals.length * ulp 53)) with hdd
    have h5 : Real.exp d ≤ 1 / (1 - d) := by
      have := Real.add_one_le_exp (-d)
      rw [Real.exp_neg] at this
      rw [le_div_iff₀ (by linarith)]
      have hp := Real.exp_pos d
      calc Real.exp d * (1 - d) ≤ Real.exp d * (Real.exp d)⁻¹ := by
            apply mul_le_mul_of_nonneg_left _ hp.le
            linarith
        _ = 1 := mul_inv_cancel₀ hp.ne'
    have h6 : 1 / (1 - d) ≤ 1 + 22 / 10 ^ 12 := by
      rw [div_le_iff₀ (by linarith)]
      nlinarith
    have h7 : (1 + ulp 52 : ℝ) ≤ 1 + 1 / 10 ^ 15 := by unfold ulp; norm_num
    have h8 := mul_le_mul (h5.trans h6) h7 (by unfold ulp; positivity) (by norm_num)
    refine (sub_le_sub_right h8 1).trans ?_
    norm_num
  · exact Real.rpow_nonneg (List.prod_nonneg fun v hv' => (by positivity : (0 : ℝ) ≤ 1 / 10 ^ 9).trans (hv v hv').1) _

/-! ### Examples -/

/-- Logarithms and exponentials rounded to the nearest float are computed accurately enough. -/
theorem rounded_log {q : ℕ} (hq : 1 ≤ q) : ComputesLog (ulp q) fun x => roundBits q (Real.log x) := fun _ _ =>
  (roundBits_roundsTo hq).err _

theorem rounded_exp {q : ℕ} (hq : 1 ≤ q) : ComputesExp q (ulp q) fun x => roundBits q (Real.exp x) := fun x => by
  refine ⟨?_, roundBits_float _⟩
  have := (roundBits_roundsTo hq).err (Real.exp x)
  rwa [abs_of_pos (Real.exp_pos x)] at this

/-- numpy's order for an array, on places. -/
noncomputable def numpyPlaces (n : ℕ) : SumOrder ℕ := (numpyOrder (List.range n)).getD (.one 0)

theorem numpyPlaces_order : OrderOf numpyPlaces := by
  intro n hn
  obtain ⟨t, h1, h2, -⟩ := numpyOrder_spec n (List.range n)
    (by intro h0; rw [List.range_eq_nil] at h0; omega)
    (by
      have : n < 2 ^ n := Nat.lt_two_pow_self
      simp
      omega)
  unfold numpyPlaces
  rw [h1]
  exact h2

/-- The documented example: the geometric mean of 1, 3 and 10. -/
example : ∃ g, geomeanFl (roundBits 53) (fun x => roundBits 53 (Real.log x)) (fun x => roundBits 53 (Real.exp x))
    numpyPlaces .absent [1, 3, 10] = .ok g ∧ |g - 30 ^ ((1 : ℝ) / 3)| ≤ 1 / 10 ^ 10 * 30 ^ ((1 : ℝ) / 3) := by
  have hle : (ulp 53 : ℝ) ≤ ulp 52 := by unfold ulp; norm_num
  obtain ⟨g, h1, h2⟩ := C154_practice (fl := roundBits 53) (roundBits_roundsTo (by norm_num)) numpyPlaces_order
    (lg := fun x => roundBits 53 (Real.log x)) (ex := fun x => roundBits 53 (Real.exp x))
    (fun x hx => (rounded_log (by norm_num) x hx).trans (mul_le_mul_of_nonneg_right hle (abs_nonneg _)))
    (fun x => ⟨(rounded_exp (by norm_num) x).1.trans (mul_le_mul_of_nonneg_right hle (Real.exp_pos x).le),
      (rounded_exp (by norm_num) x).2⟩)
    (vals := [1, 3, 10]) (by simp) (by simp) (by norm_num)
  refine ⟨g, h1, ?_⟩
  norm_num at h2 ⊢
  exact h2

/-- The documented example: pooling 0.1, 0.3 and 0.9. -/
example : ∃ r, geomeanOddsFl (roundBits 53) (fun x => roundBits 53 (Real.log x)) (fun x => roundBits 53 (Real.exp x))
    numpyPlaces .absent [1 / 10, 3 / 10, 9 / 10] = .ok r ∧ 0 < r ∧ r ≤ 1 := by
  obtain ⟨r, h1, h2, h3, -⟩ := C154_odds_unweighted (fl := roundBits 53) (p := 53) (roundBits_roundsTo (by norm_num))
    (by norm_num) numpyPlaces_order (e := ulp 53) (rounded_log (by norm_num)) (rounded_exp (by norm_num))
    (by unfold ulp; positivity) (by unfold ulp; norm_num) (M := 10) (by norm_num)
    (ps := [1 / 10, 3 / 10, 9 / 10]) (by simp) (by norm_num) (by unfold ulp; norm_num) rfl
  exact ⟨r, h1, h2, h3⟩

/-- Weights 1/2, 1/2 and 0, and a raised value. -/
example : ∃ g g', geomeanFl (roundBits 53) (fun x => roundBits 53 (Real.log x)) (fun x => roundBits 53 (Real.exp x))
    numpyPlaces (.weights [1 / 2, 1 / 2, 0]) [2, 8, 5] = .ok g ∧
    geomeanFl (roundBits 53) (fun x => roundBits 53 (Real.log x)) (fun x => roundBits 53 (Real.exp x))
    numpyPlaces (.weights [1 / 2, 1 / 2, 0]) [2, 9, 7] = .ok g' ∧ g ≤ g' :=
  C154_monotone (roundBits_roundsTo (by norm_num)) (by norm_num)
    (fun x y hx hxy => (roundBits_roundsTo (K := ℝ) (p := 53) (by norm_num)).mono (Real.log_le_log hx hxy))
    (fun x y hxy => (roundBits_roundsTo (K := ℝ) (p := 53) (by norm_num)).mono (Real.exp_le_exp.2 hxy))
    numpyPlaces_order (by simp) (by norm_num) (by norm_num) (by norm_num) (by unfold ulp; norm_num) (by norm_num)
    (.cons (by norm_num) (.cons (by norm_num) (.cons (by norm_num) .nil)))

/-- Relative weights 3 and 1. -/
example : ∃ g, geomeanFl (roundBits 53) (fun x => roundBits 53 (Real.log x)) (fun x => roundBits 53 (Real.exp x))
    numpyPlaces (.relative [3, 1]) [2, 8] = .ok g ∧ 0 < g := by
  obtain ⟨g, h1, h2, -⟩ := C154_relative (fl := roundBits 53) (p := 53) (roundBits_roundsTo (by norm_num))
    (by norm_num) numpyPlaces_order (e := ulp 53) (rounded_log (by norm_num)) (rounded_exp (by norm_num))
    (by unfold ulp; positivity) (by unfold ulp; norm_num) (M := 8) (by norm_num) (ws := [3, 1]) (vals := [2, 8]) (by simp)
    (by
      intro w hw
      simp only [List.mem_cons, List.not_mem_nil, or_false] at hw
      rcases hw with rfl | rfl
      · exact ⟨by norm_num, 3, 0, by norm_num, by norm_num⟩
      · exact ⟨by norm_num, 1, 0, by norm_num, by norm_num⟩)
    (by norm_num) (by norm_num) (by unfold ulp; norm_num)
  exact ⟨g, h1, h2⟩

end Verif
