import Mathlib.MeasureTheory.Integral.IntervalIntegral.Basic
import Mathlib.MeasureTheory.Integral.IntervalIntegral.FundThmCalculus
import Mathlib.Analysis.SpecialFunctions.Pow.Continuity
import Mathlib.Topology.UniformSpace.HeineCantor
import Verif.Lemmas.Radiation

/- The trapezoidal rule converges to the integral of a continuous function as the grid is refined. -/

namespace Verif

open MathUtils Spectra Filter Topology Set

/-- an integrator that sums one value per pair of neighbouring points -/
structure CellRule (I : List ℝ → List ℝ → ℝ) (cell : ℝ → ℝ → ℝ → ℝ → ℝ) : Prop where
  single : ∀ (f : ℝ → ℝ) (x : ℝ), I ([x].map f) [x] = 0
  step : ∀ (f : ℝ → ℝ) (x y : ℝ) (l : List ℝ),
    I ((x :: y :: l).map f) (x :: y :: l) = cell x (f x) y (f y) + I ((y :: l).map f) (y :: l)

theorem cellRule_trapz : CellRule trapz fun xl yl xu yu => (xu - xl) * (yl + yu) / 2 :=
  ⟨fun _ _ => rfl, fun _ _ _ _ => rfl⟩

theorem cellRule_loglog : CellRule trapzLoglog loglogVal := ⟨fun _ _ => rfl, fun _ _ _ _ => rfl⟩

/-- errors that telescope on each interval telescope over the grid -/
theorem cells_error {I : List ℝ → List ℝ → ℝ} {cell : ℝ → ℝ → ℝ → ℝ → ℝ} (hI : CellRule I cell) {f Φ : ℝ → ℝ}
    (l : List ℝ) (x : ℝ)
    (h : (x :: l).IsChain fun u v => IntervalIntegrable f MeasureTheory.volume u v
      ∧ |cell u (f u) v (f v) - ∫ t in u..v, f t| ≤ Φ v - Φ u) :
    IntervalIntegrable f MeasureTheory.volume x ((x :: l).getLast (by simp)) ∧
    |over I (x :: l) f - ∫ t in x..(x :: l).getLast (by simp), f t|
      ≤ Φ ((x :: l).getLast (by simp)) - Φ x := by
  unfold over
  induction l generalizing x with
  | nil =>
    rw [hI.single]
    simp
  | cons y l ih =>
    obtain ⟨⟨i1, hc⟩, hch⟩ := List.isChain_cons_cons.1 h
    obtain ⟨i2, e⟩ := ih y hch
    have hlast : (x :: y :: l).getLast (by simp) = (y :: l).getLast (by simp) := by simp
    rw [hlast]
    generalize (y :: l).getLast (by simp) = L at i2 e
    refine ⟨i1.trans i2, ?_⟩
    rw [← intervalIntegral.integral_add_adjacent_intervals i1 i2, hI.step]
    generalize cell x (f x) y (f y) = A at hc
    generalize I (List.map f (y :: l)) (y :: l) = S at e
    generalize ∫ t in x..y, f t = J at hc
    generalize ∫ t in y..L, f t = J' at e
    rw [abs_le] at hc e ⊢
    constructor <;> linarith [hc.1, hc.2, e.1, e.2]

theorem over_error {I : List ℝ → List ℝ → ℝ} {cell : ℝ → ℝ → ℝ → ℝ → ℝ} (hI : CellRule I cell) {f Φ : ℝ → ℝ}
    {a b : ℝ} {l mid : List ℝ} (he : l = a :: (mid ++ [b]))
    (h : l.IsChain fun u v => IntervalIntegrable f MeasureTheory.volume u v
      ∧ |cell u (f u) v (f v) - ∫ t in u..v, f t| ≤ Φ v - Φ u) :
    |over I l f - ∫ t in a..b, f t| ≤ Φ b - Φ a := by
  subst he
  have := (cells_error hI (mid ++ [b]) a h).2
  have hlast : (a :: (mid ++ [b])).getLast (by simp) = b := by simp
  rwa [hlast] at this

/-- an interval value close to the left sample times the width is close to the integral -/
theorem cell_close {f : ℝ → ℝ} {u v A ε : ℝ} (huv : u ≤ v) (hf : ContinuousOn f (Icc u v))
    (hos : ∀ s ∈ Icc u v, ∀ t ∈ Icc u v, |f s - f t| ≤ ε) (hA : |A - f u * (v - u)| ≤ ε * (v - u)) :
    IntervalIntegrable f MeasureTheory.volume u v ∧ |A - ∫ t in u..v, f t| ≤ 2 * ε * v - 2 * ε * u := by
  have i1 : IntervalIntegrable f MeasureTheory.volume u v :=
    (hf.mono (by rw [uIcc_of_le huv])).intervalIntegrable
  refine ⟨i1, ?_⟩
  have e1 : f u * (v - u) = ∫ _ in u..v, f u := by
    rw [intervalIntegral.integral_const, smul_eq_mul]; ring
  have h2 : |f u * (v - u) - ∫ t in u..v, f t| ≤ ε * (v - u) := by
    rw [e1, ← intervalIntegral.integral_sub (by simp) i1]
    have := intervalIntegral.norm_integral_le_of_norm_le_const (a := u) (b := v) (C := ε)
      (f := fun t => f u - f t) (by
        intro t ht
        rw [uIoc_of_le huv] at ht
        exact hos u ⟨le_rfl, huv⟩ t ⟨ht.1.le, ht.2⟩)
    rwa [Real.norm_eq_abs, abs_of_nonneg (by linarith : 0 ≤ v - u)] at this
  rw [abs_le] at hA h2 ⊢
  constructor <;> linarith [hA.1, hA.2, h2.1, h2.2]

/-- a sequence of grids from `a` to `b` that get arbitrarily fine -/
structure FineGrids (a b : ℝ) (G : ℕ → List ℝ) : Prop where
  ends : ∀ᶠ n in atTop, ∃ mid, G n = a :: (mid ++ [b])
  chain : ∀ᶠ n in atTop, (G n).IsChain (· ≤ ·)
  fine : ∀ δ > 0, ∀ᶠ n in atTop, (G n).IsChain fun u v => v - u < δ

theorem mem_of_ends {a b : ℝ} {l mid : List ℝ} (e : l = a :: (mid ++ [b])) (h : l.IsChain (· ≤ ·)) :
    ∀ u ∈ l, u ∈ Icc a b := by
  have hp := List.isChain_iff_pairwise.1 h
  subst e
  intro u hu
  rw [← List.cons_append, List.pairwise_append] at hp
  refine ⟨?_, ?_⟩
  · rcases List.mem_cons.1 hu with rfl | hu
    · exact le_rfl
    · have := List.isChain_iff_pairwise.1 h
      exact (List.pairwise_cons.1 this).1 u hu
  · rw [← List.cons_append] at hu
    rcases List.mem_append.1 hu with hu | hu
    · exact hp.2.2 u hu b (by simp)
    · simp only [List.mem_singleton] at hu; exact hu.le

/-- an integrator whose interval values approach the left sample times the width converges -/
theorem cell_tendsto {I : List ℝ → List ℝ → ℝ} {cell : ℝ → ℝ → ℝ → ℝ → ℝ} (hI : CellRule I cell) {f : ℝ → ℝ}
    {a b : ℝ} (hab : a ≤ b) (hf : ContinuousOn f (Icc a b)) {G : ℕ → List ℝ} (hG : FineGrids a b G)
    (hcell : ∀ ε > 0, ∃ δ > 0, ∀ u ∈ Icc a b, ∀ v ∈ Icc a b, u ≤ v → v - u < δ →
      |cell u (f u) v (f v) - f u * (v - u)| ≤ ε * (v - u)) :
    Tendsto (fun n => over I (G n) f) atTop (𝓝 (∫ t in a..b, f t)) := by
  rw [Metric.tendsto_nhds]
  intro ε hε
  have hb0 : 0 < b - a + 1 := by linarith
  set η := ε / (4 * (b - a + 1)) with hη
  have hη0 : 0 < η := by positivity
  have huc := isCompact_Icc.uniformContinuousOn_of_continuous hf
  rw [Metric.uniformContinuousOn_iff] at huc
  obtain ⟨δ, hδ, hu⟩ := huc η hη0
  obtain ⟨δ', hδ', hc'⟩ := hcell η hη0
  filter_upwards [hG.ends, hG.chain, hG.fine δ hδ, hG.fine δ' hδ'] with n ⟨mid, e⟩ hc hfine hfine'
  have hin := mem_of_ends e hc
  have main := over_error hI (f := f) (Φ := fun x => 2 * η * x) e (by
    rw [List.isChain_iff_getElem] at hfine hfine' hc ⊢
    intro i hi
    have h1 := hin _ (List.getElem_mem (by omega : i < (G n).length))
    have h2 := hin _ (List.getElem_mem hi)
    refine cell_close (hc i hi) (hf.mono (Icc_subset_Icc h1.1 h2.2)) ?_
      (hc' _ h1 _ h2 (hc i hi) (hfine' i hi))
    intro s hs t ht
    have := hu s ⟨h1.1.trans hs.1, hs.2.trans h2.2⟩ t ⟨h1.1.trans ht.1, ht.2.trans h2.2⟩ (by
      rw [Real.dist_eq, abs_lt]
      constructor <;> linarith [hs.1, hs.2, ht.1, ht.2, hfine i hi])
    rw [Real.dist_eq] at this
    exact this.le)
  rw [Real.dist_eq]
  refine lt_of_le_of_lt main ?_
  have : 2 * η * b - 2 * η * a = ε * (b - a) / (2 * (b - a + 1)) := by
    rw [hη]; field_simp; ring
  rw [this, div_lt_iff₀ (by positivity)]
  nlinarith

/-- the trapezoidal rule converges for every function continuous on the closed interval -/
theorem trapz_tendsto {f : ℝ → ℝ} {a b : ℝ} (hab : a ≤ b) (hf : ContinuousOn f (Icc a b)) {G : ℕ → List ℝ}
    (hG : FineGrids a b G) : Tendsto (fun n => over trapz (G n) f) atTop (𝓝 (∫ t in a..b, f t)) := by
  refine cell_tendsto cellRule_trapz hab hf hG fun ε hε => ?_
  have huc := isCompact_Icc.uniformContinuousOn_of_continuous hf
  rw [Metric.uniformContinuousOn_iff] at huc
  obtain ⟨δ, hδ, hu⟩ := huc ε hε
  refine ⟨δ, hδ, fun u hu' v hv huv hd => ?_⟩
  have h := hu v hv u hu' (by rw [Real.dist_eq, abs_of_nonneg (by linarith)]; exact hd)
  rw [Real.dist_eq] at h
  have e : (v - u) * (f u + f v) / 2 - f u * (v - u) = (v - u) * ((f v - f u) / 2) := by ring
  rw [e, abs_mul, abs_of_nonneg (by linarith : 0 ≤ v - u), mul_comm]
  refine mul_le_mul_of_nonneg_right ?_ (by linarith)
  rw [abs_div, abs_two]
  have := abs_nonneg (f v - f u)
  linarith

/-- one interval of `trapz_loglog` lies within the variation of the sample and of the abscissa -/
theorem loglogVal_close {xl yl xu yu : ℝ} (hl : InRange xl) (hu : InRange xu) (hlu : xl ≤ xu) (hyl : InRange yl)
    (hyu : InRange yu) (hr : xu / xl ≤ fmax) :
    |loglogVal xl yl xu yu - yl * (xu - xl)| ≤ max |yu - yl| (yl * ((xu - xl) / xl)) * (xu - xl) := by
  rcases hlu.eq_or_lt with rfl | hlt
  · simp [loglogVal]
  have hl0 := hl.pos
  have hu0 := hu.pos
  have hy0 := hyl.pos
  have hdx : 0 < xu - xl := by linarith
  have hlog : 0 < Real.log xu - Real.log xl := by have := Real.log_lt_log hl0 hlt; linarith
  -- the samples lie on a power law
  obtain ⟨m, hm⟩ : ∃ m, m = (Real.log yu - Real.log yl) / (Real.log xu - Real.log xl) := ⟨_, rfl⟩
  obtain ⟨A, hA⟩ : ∃ A, A = yl / xl ^ m := ⟨_, rfl⟩
  have hxm : 0 < xl ^ m := Real.rpow_pos_of_pos hl0 m
  have hA0 : 0 < A := by rw [hA]; positivity
  have e1 : yl = A * xl ^ m := by rw [hA]; field_simp
  have e2 : yu = A * xu ^ m := by
    have h1 : Real.log (A * xu ^ m) = Real.log yu := by
      rw [hA, Real.log_mul (by positivity) (Real.rpow_pos_of_pos hu0 m).ne', Real.log_div hy0.ne' hxm.ne',
        Real.log_rpow hl0, Real.log_rpow hu0]
      have : m * (Real.log xu - Real.log xl) = Real.log yu - Real.log yl := by rw [hm]; field_simp
      linarith
    exact (Real.log_injOn_pos (mem_Ioi.2 (by have := Real.rpow_pos_of_pos hu0 m; positivity)) (mem_Ioi.2 hyu.pos) h1).symm
  by_cases hb : 1 / 10 ^ 10 < |m + 1|
  · -- exact integral of the power law, which lies between the samples
    have hint : loglogVal xl yl xu yu = ∫ x in xl..xu, A * x ^ m := by
      have := loglogVal_pow hA0 hl hu hlt (e1 ▸ hyl) (e2 ▸ hyu) hb
      rwa [← e1, ← e2] at this
    rw [hint]
    have ec : yl * (xu - xl) = ∫ _ in xl..xu, yl := by
      rw [intervalIntegral.integral_const, smul_eq_mul]; ring
    rw [ec, ← intervalIntegral.integral_sub (intervalIntegrable_power hl0 hu0) (by simp)]
    have := intervalIntegral.norm_integral_le_of_norm_le_const (a := xl) (b := xu) (C := |yu - yl|)
      (f := fun x => A * x ^ m - yl) (by
        intro t ht
        rw [uIoc_of_le hlt.le] at ht
        have ht0 : 0 < t := hl0.trans ht.1
        rw [Real.norm_eq_abs]
        rcases le_total 0 m with h0 | h0
        · have h1 : yl ≤ A * t ^ m := by
            rw [e1]; exact mul_le_mul_of_nonneg_left (Real.rpow_le_rpow hl0.le ht.1.le h0) hA0.le
          have h2 : A * t ^ m ≤ yu := by
            rw [e2]; exact mul_le_mul_of_nonneg_left (Real.rpow_le_rpow ht0.le ht.2 h0) hA0.le
          rw [abs_of_nonneg (by linarith), abs_of_nonneg (by linarith)]
          linarith
        · have h1 : A * t ^ m ≤ yl := by
            rw [e1]; exact mul_le_mul_of_nonneg_left (Real.rpow_le_rpow_of_nonpos hl0 ht.1.le h0) hA0.le
          have h2 : yu ≤ A * t ^ m := by
            rw [e2]; exact mul_le_mul_of_nonneg_left (Real.rpow_le_rpow_of_nonpos ht0 ht.2 h0) hA0.le
          rw [abs_of_nonpos (by linarith), abs_of_nonpos (by linarith)]
          linarith)
    rw [Real.norm_eq_abs, abs_of_pos hdx] at this
    exact this.trans (mul_le_mul_of_nonneg_right (le_max_left _ _) hdx.le)
  · -- logarithmic branch
    have hval : loglogVal xl yl xu yu = xl * yl * Real.log (xu / xl) := by
      unfold loglogVal
      dsimp only
      have hs := slope_eq hA0 hl hu hlt (e1 ▸ hyl) (e2 ▸ hyu)
      rw [← e1, ← e2] at hs
      rw [hs, if_neg, if_neg hb, (inRange_ratio hl0 hlt hr).log]
      rintro (h | h | h)
      · exact hy0.ne' h
      · exact hyu.pos.ne' h
      · exact hlt.ne h
    have hr0 : 0 < xu / xl := by positivity
    have hup : Real.log (xu / xl) ≤ xu / xl - 1 := Real.log_le_sub_one_of_pos hr0
    have hlo : 1 - (xu / xl)⁻¹ ≤ Real.log (xu / xl) := Real.one_sub_inv_le_log_of_pos hr0
    have u1 : xl * yl * Real.log (xu / xl) ≤ yl * (xu - xl) := by
      have : xl * yl * Real.log (xu / xl) ≤ xl * yl * (xu / xl - 1) := by gcongr
      have e : xl * yl * (xu / xl - 1) = yl * (xu - xl) := by field_simp
      linarith
    have l1 : yl * (xu - xl) * (xl / xu) ≤ xl * yl * Real.log (xu / xl) := by
      have : xl * yl * (1 - (xu / xl)⁻¹) ≤ xl * yl * Real.log (xu / xl) := by gcongr
      have e : xl * yl * (1 - (xu / xl)⁻¹) = yl * (xu - xl) * (xl / xu) := by field_simp
      linarith
    rw [hval, abs_of_nonpos (by linarith)]
    refine le_trans ?_ (mul_le_mul_of_nonneg_right (le_max_right _ _) hdx.le)
    have e : yl * (xu - xl) * (xl / xu) = yl * (xu - xl) - yl * ((xu - xl) / xu) * (xu - xl) := by
      field_simp; ring
    have : (xu - xl) / xu ≤ (xu - xl) / xl := by gcongr
    have : yl * ((xu - xl) / xu) * (xu - xl) ≤ yl * ((xu - xl) / xl) * (xu - xl) := by gcongr
    linarith

/-- `trapz_loglog` converges for every continuous function whose values, like the abscissae, are normal doubles -/
theorem loglog_tendsto {f : ℝ → ℝ} {a b : ℝ} (ha : InRange a) (hb : InRange b) (hab : a ≤ b)
    (hf : ContinuousOn f (Icc a b)) (hr : ∀ x ∈ Icc a b, InRange (f x)) {G : ℕ → List ℝ}
    (hG : FineGrids a b G) : Tendsto (fun n => over trapzLoglog (G n) f) atTop (𝓝 (∫ t in a..b, f t)) := by
  refine cell_tendsto cellRule_loglog hab hf hG fun ε hε => ?_
  have ha0 := ha.pos
  have huc := isCompact_Icc.uniformContinuousOn_of_continuous hf
  rw [Metric.uniformContinuousOn_iff] at huc
  obtain ⟨δ, hδ, hu⟩ := huc ε hε
  have hf0 : 0 < fmax := ftiny_pos.trans (ftiny_lt_one.trans one_lt_fmax)
  have hf1 : 0 < fmax - 1 := by linarith [one_lt_fmax]
  refine ⟨min δ (min (ε * a / fmax) (a * (fmax - 1))), by positivity, fun u hu' v hv huv hd => ?_⟩
  have hu0 : 0 < u := lt_of_lt_of_le ha0 hu'.1
  have d1 : v - u < δ := lt_of_lt_of_le hd (min_le_left _ _)
  have d2 : v - u < ε * a / fmax := lt_of_lt_of_le hd ((min_le_right _ _).trans (min_le_left _ _))
  have d3 : v - u < a * (fmax - 1) := lt_of_lt_of_le hd ((min_le_right _ _).trans (min_le_right _ _))
  refine (loglogVal_close ⟨ha.1.trans hu'.1, hu'.2.trans hb.2⟩ ⟨ha.1.trans hv.1, hv.2.trans hb.2⟩ huv (hr u hu')
    (hr v hv) ?_).trans ?_
  · rw [div_le_iff₀ hu0]
    nlinarith [hu'.1]
  · refine mul_le_mul_of_nonneg_right (max_le ?_ ?_) (by linarith)
    · have h := hu v hv u hu' (by rw [Real.dist_eq, abs_of_nonneg (by linarith)]; exact d1)
      rw [Real.dist_eq] at h
      exact h.le
    · have h1 : f u ≤ fmax := (hr u hu').2
      have h2 : (v - u) / u ≤ (v - u) / a := by
        have : 0 ≤ v - u := by linarith
        gcongr
        exact hu'.1
      have h3 : 0 ≤ (v - u) / u := div_nonneg (by linarith) hu0.le
      have h4 : (v - u) / a ≤ ε / fmax := by
        rw [div_le_div_iff₀ ha0 hf0]
        rw [lt_div_iff₀ hf0] at d2
        exact d2.le
      calc f u * ((v - u) / u) ≤ fmax * (ε / fmax) := mul_le_mul h1 (h2.trans h4) h3 hf0.le
        _ = ε := by field_simp

/-- the trapezoidal rule converges for decreasing functions, continuous or not -/
theorem trapz_tendsto_antitone {f : ℝ → ℝ} {a b : ℝ} (hf : Antitone f) {G : ℕ → List ℝ}
    (hG : FineGrids a b G) : Tendsto (fun n => over trapz (G n) f) atTop (𝓝 (∫ t in a..b, f t)) := by
  rw [Metric.tendsto_nhds]
  intro ε hε
  have hD : 0 < |f a - f b| + 1 := by positivity
  filter_upwards [hG.ends, hG.chain, hG.fine (ε / (|f a - f b| + 1)) (by positivity)] with n ⟨mid, e⟩ hc hfine
  set δ := ε / (|f a - f b| + 1) with hδ
  have hδ0 : 0 < δ := by positivity
  have main := over_error cellRule_trapz (f := f) (Φ := fun x => -(δ * f x)) e (by
    rw [List.isChain_iff_getElem] at hfine hc ⊢
    intro i hi
    have huv := hc i hi
    have hd := hfine i hi
    generalize (G n)[i] = u at huv hd
    generalize (G n)[i + 1] = v at huv hd
    have i1 : IntervalIntegrable f MeasureTheory.volume u v := hf.intervalIntegrable
    refine ⟨i1, ?_⟩
    have hfv : f v ≤ f u := hf huv
    have lo : f v * (v - u) ≤ ∫ t in u..v, f t := by
      have := intervalIntegral.integral_mono_on (f := fun _ => f v) (g := f) huv (by simp) i1
        fun t ht => hf ht.2
      rw [intervalIntegral.integral_const, smul_eq_mul] at this
      linarith
    have hi' : ∫ t in u..v, f t ≤ f u * (v - u) := by
      have := intervalIntegral.integral_mono_on (f := f) (g := fun _ => f u) huv i1 (by simp)
        fun t ht => hf ht.1
      rw [intervalIntegral.integral_const, smul_eq_mul] at this
      linarith
    have hw : 0 ≤ v - u := by linarith
    have hb : (v - u) * (f u - f v) ≤ δ * (f u - f v) := mul_le_mul_of_nonneg_right hd.le (by linarith)
    rw [abs_le]
    constructor <;> nlinarith)
  rw [Real.dist_eq]
  refine lt_of_le_of_lt main ?_
  have h1 : -(δ * f b) - -(δ * f a) ≤ δ * |f a - f b| := by
    have := le_abs_self (f a - f b)
    nlinarith
  refine lt_of_le_of_lt h1 ?_
  rw [hδ, div_mul_eq_mul_div, div_lt_iff₀ hD]
  nlinarith [abs_nonneg (f a - f b)]

/-- sums of functions -/
theorem over_trapz_add (grid : List ℝ) (f g : ℝ → ℝ) :
    over trapz grid (fun x => f x + g x) = over trapz grid f + over trapz grid g := by
  unfold over
  induction grid with
  | nil => simp [trapz]
  | cons x l ih =>
    cases l with
    | nil => simp [trapz]
    | cons y l =>
      simp only [List.map_cons, trapz] at ih ⊢
      rw [ih]
      ring

/-- the trapezoidal rule converges for a function with one jump: `f1` counts up to `c` only -/
theorem trapz_tendsto_jump {f f0 f1 : ℝ → ℝ} {a b c : ℝ} (ha : 0 < a) (hab : a ≤ b) (hc : 0 < c)
    (h0 : ContinuousOn f0 (Icc a b)) (h1 : ContinuousOn f1 (Ioi 0))
    (hf : ∀ x ∈ Icc a b, f x = f0 x + if x ≤ c then f1 x else 0) {G : ℕ → List ℝ}
    (hG : FineGrids a b G) : Tendsto (fun n => over trapz (G n) f) atTop (𝓝 (∫ t in a..b, f t)) := by
  -- a continuous function plus a multiple of the step
  set g : ℝ → ℝ := fun x => f0 x + (f1 (min x c) - f1 c) with hg
  set s : ℝ → ℝ := fun x => if x ≤ c then 1 else 0 with hs
  have hsanti : Antitone s := by
    intro x y hxy
    simp only [hs]
    split_ifs <;> linarith
  have hgc : ContinuousOn g (Icc a b) := by
    refine h0.add ((h1.comp (by fun_prop) ?_).sub continuousOn_const)
    intro x hx
    exact lt_min (lt_of_lt_of_le ha hx.1) hc
  have hfe : ∀ x ∈ Icc a b, f x = g x + f1 c * s x := by
    intro x hx
    rw [hf x hx]
    simp only [hg, hs]
    split_ifs with h
    · rw [min_eq_left h]; ring
    · rw [min_eq_right (not_le.1 h).le]; ring
  have ig : IntervalIntegrable g MeasureTheory.volume a b :=
    (hgc.mono (by rw [uIcc_of_le hab])).intervalIntegrable
  have is : IntervalIntegrable (fun x => f1 c * s x) MeasureTheory.volume a b :=
    (hsanti.intervalIntegrable).const_mul _
  have e : ∫ t in a..b, f t = (∫ t in a..b, g t) + f1 c * ∫ t in a..b, s t := by
    rw [← intervalIntegral.integral_const_mul, ← intervalIntegral.integral_add ig is]
    refine intervalIntegral.integral_congr ?_
    intro t ht
    rw [uIcc_of_le hab] at ht
    exact hfe t ht
  rw [e]
  refine ((trapz_tendsto hab hgc hG).add ((trapz_tendsto_antitone hsanti hG).const_mul (f1 c))).congr' ?_
  filter_upwards [hG.ends, hG.chain] with n ⟨mid, e⟩ hch
  rw [← over_scale homogeneous_trapz, ← over_trapz_add]
  exact over_congr fun x hx => (hfe x (mem_of_ends e hch x hx)).symm

/-- the grids of `np.logspace(log10(a), log10(b), n)` -/
theorem fineGrids_logspace {a b : ℝ} (ha : 0 < a) (hab : a < b) :
    FineGrids a b (fun n => logspace (log10 a) (log10 b) n) where
  ends := by
    filter_upwards [eventually_ge_atTop 2] with n hn
    exact logspace_ends_n ha (ha.trans hab) hn
  chain := by
    filter_upwards [eventually_ge_atTop 2] with n hn
    exact logspace_chain (log10_lt ha hab) hn
  fine := by
    intro δ hδ
    have hb : 0 < b := ha.trans hab
    set w := log10 b - log10 a with hw
    have hw0 : 0 < w := by have := log10_lt ha hab; linarith
    have hlim : Tendsto (fun n : ℕ => (10 : ℝ) ^ (w / ((n : ℝ) - 1))) atTop (𝓝 1) := by
      have h1 : Tendsto (fun n : ℕ => w / ((n : ℝ) - 1)) atTop (𝓝 0) :=
        tendsto_const_nhds.div_atTop (tendsto_atTop_add_const_right _ _ tendsto_natCast_atTop_atTop)
      have h2 : ContinuousAt (fun x : ℝ => (10 : ℝ) ^ x) 0 := Real.continuousAt_const_rpow (by norm_num)
      have := h2.tendsto.comp h1
      rw [Real.rpow_zero] at this
      exact this
    have hev : ∀ᶠ n : ℕ in atTop, (10 : ℝ) ^ (w / ((n : ℝ) - 1)) < 1 + δ / b :=
      hlim.eventually (gt_mem_nhds (by have : 0 < δ / b := by positivity
                                       linarith))
    filter_upwards [hev, eventually_ge_atTop 2] with n h1 hn
    obtain ⟨mid, e⟩ := logspace_ends_n ha hb hn
    have hin := mem_of_ends e (logspace_chain (log10_lt ha hab) hn)
    unfold logspace linspace at hin ⊢
    rw [List.map_map] at hin ⊢
    rw [List.isChain_iff_getElem]
    intro i hi
    have hx := hin _ (List.getElem_mem (by omega : i < _))
    simp only [List.getElem_map, List.getElem_range, Function.comp_apply] at hx ⊢
    have e2 : log10 a + ((i + 1 : ℕ) : ℝ) * (w / ((n : ℝ) - 1))
        = (log10 a + (i : ℝ) * (w / ((n : ℝ) - 1))) + w / ((n : ℝ) - 1) := by push_cast; ring
    rw [← hw] at hx ⊢
    rw [e2, Real.rpow_add (by norm_num : (0 : ℝ) < 10)]
    generalize (10 : ℝ) ^ (log10 a + (i : ℝ) * (w / ((n : ℝ) - 1))) = X at hx
    generalize (10 : ℝ) ^ (w / ((n : ℝ) - 1)) = q at h1
    have hX : 0 < X := lt_of_lt_of_le ha hx.1
    have : X * q - X < X * (δ / b) := by nlinarith
    refine lt_of_lt_of_le this ?_
    rw [mul_div_assoc', div_le_iff₀ hb]
    nlinarith [hx.2]

end Verif
