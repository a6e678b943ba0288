import Mathlib.MeasureTheory.Integral.Prod
import Mathlib.MeasureTheory.Integral.IntervalIntegral.Basic
import Verif.Props.EnergyCount

/-
C107, for one electron: the kernel of SSC gives the scattered photons the energy the electron loses among photons coming
from all directions, as the kernel of external Compton does (C105).
-/

namespace Verif.Kernels

open MathUtils Geometry MeasureTheory

variable {γ ε : ℝ}

/-- energy times kernel, on the directions and the energies at which it does not vanish -/
noncomputable def sheet (γ ε s c : ℝ) : ℝ :=
  open Classical in if (0 < s ∧ s < γ) ∧ c < 1 ∧ Allowed γ s ε c then s * inside γ (targetEnergy γ ε c) s else 0

theorem sheet_eq (hγ : 0 < γ) (he : 0 < ε) {s c φ : ℝ} (hs : 0 < s) (hc : c ≤ 1) :
    s * comptonKernel γ s ε 1 c φ = sheet γ ε s c := by
  unfold sheet
  split_ifs with h
  · rw [comptonKernel_inside hγ hs he (by rw [C38_aligned]; exact h.2.1) (by rw [C38_aligned]; exact h.2.2), C38_aligned]
  · rcases eq_or_lt_of_le hc with h1 | h1
    · rw [C39_zero hγ hs he (by rw [C38_aligned]; exact hc) (Or.inl (by rw [C38_aligned]; exact h1)), mul_zero]
    · have : ¬ Allowed γ s ε c := fun ha => h ⟨⟨hs, allowed_lt hγ hs he h1 ha⟩, h1, ha⟩
      rw [C39_zero hγ hs he (by rw [C38_aligned]; exact hc) (Or.inr (by rw [C38_aligned]; exact this)), mul_zero]

/-- the kernel between its limits -/
theorem inside_bounds (hγ : 0 < γ) (he : 0 < ε) {s c : ℝ} (hs : 0 < s) (hc : c < 1) (ha : Allowed γ s ε c) :
    0 ≤ inside γ (targetEnergy γ ε c) s ∧ inside γ (targetEnergy γ ε c) s ≤ 1 + 1 / (1 - s / γ) := by
  have hlt := allowed_lt hγ hs he hc ha
  have hd : 0 < 1 - c := by linarith
  have ht : 0 < targetEnergy γ ε c := by unfold targetEnergy; positivity
  have hy : 0 < 1 - s / γ := by rw [sub_pos, div_lt_one hγ]; exact hlt
  have hA : s * (1 + 2 * targetEnergy γ ε c) ≤ 2 * γ * targetEnergy γ ε c := ha
  set a := targetEnergy γ ε c
  have e0 : γ * a * (1 - s / γ) = a * (γ - s) := by field_simp
  have hD : 0 < a * (γ - s) := mul_pos ht (by linarith)
  set t := s / (a * (γ - s)) with ht'
  have t0 : 0 ≤ t := by positivity
  have t2 : t ≤ 2 := by
    rw [ht', div_le_iff₀ hD]; linarith
  have e : inside γ a s = (1 - s / γ) + 1 / (1 - s / γ) - 2 * t + t ^ 2 := by
    unfold inside
    rw [e0, ht', div_pow]
    ring
  have y1 : 1 - s / γ ≤ 1 := by have : 0 < s / γ := by positivity
                                linarith
  have y2 : 2 ≤ (1 - s / γ) + 1 / (1 - s / γ) := by
    generalize 1 - s / γ = y at hy
    have : y + 1 / y - 2 = (y - 1) ^ 2 / y := by field_simp; ring
    have h2 : 0 ≤ (y - 1) ^ 2 / y := by positivity
    linarith
  rw [e]
  constructor <;> nlinarith

theorem allowed_y (hγ : 0 < γ) (he : 0 < ε) {s c : ℝ} (hs : 0 < s) (hc : c < 1) (hc' : -1 ≤ c) (ha : Allowed γ s ε c) :
    1 / (1 - s / γ) ≤ 1 + 4 * γ * ε := by
  have hlt := allowed_lt hγ hs he hc ha
  have hd : 0 < 1 - c := by linarith
  have ht : 0 < γ * ε * (1 - c) := by positivity
  have hA : s * (1 + 2 * (γ * ε * (1 - c))) ≤ 2 * γ * (γ * ε * (1 - c)) := ha
  have e : 1 / (1 - s / γ) = γ / (γ - s) := by
    have : γ - s ≠ 0 := by linarith
    field_simp
  rw [e, div_le_iff₀ (by linarith)]
  have h1 : γ * ε * (1 - c) ≤ 2 * (γ * ε) := by nlinarith [mul_pos hγ he]
  nlinarith

theorem measurable_sheet : Measurable fun p : ℝ × ℝ => sheet γ ε p.1 p.2 := by
  unfold sheet
  refine Measurable.ite ?_ ?_ measurable_const
  · have h1 : MeasurableSet {p : ℝ × ℝ | 0 < p.1 ∧ p.1 < γ} :=
      (measurableSet_lt measurable_const measurable_fst).inter (measurableSet_lt measurable_fst measurable_const)
    have h2 : MeasurableSet {p : ℝ × ℝ | p.2 < 1} := measurableSet_lt measurable_snd measurable_const
    have h3 : MeasurableSet {p : ℝ × ℝ | Allowed γ p.1 ε p.2} := by
      unfold Allowed
      exact measurableSet_le (by fun_prop) (by fun_prop)
    exact h1.inter (h2.inter h3)
  · unfold inside targetEnergy
    fun_prop

theorem sheet_bounds (hγ : 0 < γ) (he : 0 < ε) {s c : ℝ} (hc : -1 ≤ c) :
    0 ≤ sheet γ ε s c ∧ sheet γ ε s c ≤ γ * (2 + 4 * γ * ε) := by
  unfold sheet
  split_ifs with h
  · obtain ⟨⟨hs, hs'⟩, hc1, ha⟩ := h
    obtain ⟨l, u⟩ := inside_bounds hγ he hs hc1 ha
    have := allowed_y hγ he hs hc1 hc ha
    exact ⟨mul_nonneg hs.le l, mul_le_mul hs'.le (by linarith) l hγ.le⟩
  · exact ⟨le_rfl, by positivity⟩

theorem integrable_sheet (hγ : 0 < γ) (he : 0 < ε) :
    Integrable (Function.uncurry fun s c => sheet γ ε s c)
      ((volume.restrict (Set.Ioc 0 γ)).prod (volume.restrict (Set.Ioc (-1) 1))) := by
  refine Integrable.of_bound (C := γ * (2 + 4 * γ * ε)) measurable_sheet.aestronglyMeasurable ?_
  rw [Measure.prod_restrict, ae_restrict_iff' (measurableSet_Ioc.prod measurableSet_Ioc)]
  refine Filter.Eventually.of_forall fun p hp => ?_
  obtain ⟨l, u⟩ := sheet_bounds (s := p.1) (c := p.2) hγ he hp.2.1.le
  change ‖sheet γ ε p.1 p.2‖ ≤ _
  rw [Real.norm_of_nonneg l]
  exact u

/-- mean of the kernel of external Compton over the directions of the target photon -/
noncomputable def meanKernel (γ ε s : ℝ) : ℝ := 1 / 4 * ∫ mu in (-1)..1, comptonKernel γ s ε 1 mu 0

theorem mean_sheet (hγ : 0 < γ) (he : 0 < ε) {s : ℝ} (hs : 0 < s) :
    s * meanKernel γ ε s = 1 / 4 * ∫ c in Set.Ioc (-1) 1, sheet γ ε s c := by
  unfold meanKernel
  rw [intervalIntegral.integral_of_le (by norm_num), ← mul_assoc, mul_comm s, mul_assoc, ← integral_const_mul]
  congr 1
  exact setIntegral_congr_fun measurableSet_Ioc fun c hc => sheet_eq hγ he hs hc.2

theorem integrable_mean (hγ : 0 < γ) (he : 0 < ε) :
    IntervalIntegrable (fun s => s * meanKernel γ ε s) volume 0 γ := by
  rw [intervalIntegrable_iff_integrableOn_Ioc_of_le hγ.le]
  have h := (integrable_sheet hγ he).integral_prod_left.const_mul (1 / 4)
  refine IntegrableOn.congr_fun (f := fun s => 1 / 4 * ∫ c in Set.Ioc (-1) 1, sheet γ ε s c) h ?_ measurableSet_Ioc
  intro s hs
  exact (mean_sheet hγ he hs.1).symm

/-- the energy of the scattered photons, for photons from all directions -/
theorem C107_mean (hγ : 0 < γ) (he : 0 < ε) :
    3 / (4 * γ ^ 2 * ε) * ∫ s in (0)..γ, s * meanKernel γ ε s = 4 / 3 * γ ^ 2 * ε * Compton.isoLoss (4 * γ * ε) := by
  have e1 : ∫ s in (0)..γ, s * meanKernel γ ε s
      = 1 / 4 * ∫ s in Set.Ioc 0 γ, ∫ c in Set.Ioc (-1) 1, sheet γ ε s c := by
    rw [intervalIntegral.integral_of_le hγ.le, ← integral_const_mul]
    exact setIntegral_congr_fun measurableSet_Ioc fun s hs => mean_sheet hγ he hs.1
  have e2 : ∫ c in Set.Ioc (-1) 1, ∫ s in Set.Ioc 0 γ, sheet γ ε s c
      = ∫ c in (-1)..1, 8 / 3 * γ ^ 4 * ε ^ 2 * ((1 - c) ^ 2 * loss (4 * γ * ε * (1 - c) / 4)) := by
    rw [intervalIntegral.integral_of_le (by norm_num)]
    refine setIntegral_congr_fun measurableSet_Ioc fun c hc => ?_
    have h := (Compton.weighted_kernel (m := γ) (mu_s := 1) (mu := c) (φ := 0) (κ := 1) hγ he one_pos (by linarith)
      (by norm_num) ⟨hc.1.le, hc.2⟩ 1).2
    rw [intervalIntegral.integral_of_le hγ.le] at h
    simp only [one_mul, C38_aligned] at h
    have e : ∫ s in Set.Ioc 0 γ, sheet γ ε s c = ∫ s in Set.Ioc 0 γ, s * comptonKernel γ s ε 1 c 0 :=
      setIntegral_congr_fun measurableSet_Ioc fun s hs => (sheet_eq hγ he hs.1 hc.2).symm
    simp only [e, h]
    have e3 : 4 * γ * ε * (1 - c) / 4 = targetEnergy γ ε c := by unfold targetEnergy; ring
    rw [e3]
    unfold targetEnergy
    ring
  rw [e1, integral_integral_swap (integrable_sheet hγ he), e2, intervalIntegral.integral_const_mul]
  unfold Compton.isoLoss
  generalize ∫ c in (-1 : ℝ)..1, (1 - c) ^ 2 * loss (4 * γ * ε * (1 - c) / 4) = X
  field_simp
  ring

/-- the least energy of a scattered photon in the kernel of SSC: that of the target photon, but for recoil -/
noncomputable def leastEnergy (γ ε : ℝ) : ℝ := γ * ε / (γ + ε)

theorem leastEnergy_eq (hγ : 0 < γ) (he : 0 < ε) : leastEnergy γ ε = scattered γ (4 * γ * ε) (1 / (4 * γ ^ 2)) := by
  unfold leastEnergy scattered
  have : γ + ε ≠ 0 := by positivity
  field_simp

/-- the kernel of SSC is this mean above the least energy -/
theorem isotropic_cut (hγ : 1 ≤ γ) (hr : ftiny ≤ 1 / (4 * γ ^ 2)) (he : 0 < ε) {s : ℝ} (hs : 0 < s) :
    (leastEnergy γ ε ≤ s → isotropicKernel γ ε s = meanKernel γ ε s)
    ∧ (s < leastEnergy γ ε → isotropicKernel γ ε s = 0) := by
  have h0 : 0 < γ := by linarith
  have hg : 0 < 4 * γ * ε := by positivity
  have hq0 : 0 < 1 / (4 * γ ^ 2) := by positivity
  rw [leastEnergy_eq h0 he]
  constructor
  · intro h
    refine C102_mean h0 he hs fun hlt => ?_
    have hq := jonesQ_pos h0 he hs hlt
    have : 1 / (4 * γ ^ 2) ≤ jonesQ γ ε s := by
      rw [← scattered_mono h0 hg hq0 hq, scattered_jonesQ h0 he hlt]; exact h
    exact ⟨this, hr.trans this⟩
  · intro h
    rcases le_or_gt γ s with h1 | h1
    · exact C40_energy h0 he h1
    · have hq := jonesQ_pos h0 he hs h1
      refine C40_support h0 (Or.inl ?_)
      rw [← not_le, ← scattered_mono h0 hg hq0 hq, scattered_jonesQ h0 he h1, not_le]
      exact h

theorem mean_bounds (hγ : 0 < γ) (he : 0 < ε) {s : ℝ} (hs : 0 < s) (h : s < γ) :
    0 ≤ s * meanKernel γ ε s ∧ s * meanKernel γ ε s ≤ s * (1 / 2 * (1 + 1 / (1 - s / γ))) := by
  have hy : 0 < 1 - s / γ := by rw [sub_pos, div_lt_one hγ]; exact h
  rw [mean_sheet hγ he hs]
  have hb : ∀ c ∈ Set.Ioc (-1 : ℝ) 1, 0 ≤ sheet γ ε s c ∧ sheet γ ε s c ≤ s * (1 + 1 / (1 - s / γ)) := by
    intro c hc
    refine ⟨(sheet_bounds hγ he hc.1.le).1, ?_⟩
    unfold sheet
    split_ifs with h'
    · exact mul_le_mul_of_nonneg_left (inside_bounds hγ he hs h'.2.1 h'.2.2).2 hs.le
    · positivity
  constructor
  · exact mul_nonneg (by norm_num) (setIntegral_nonneg measurableSet_Ioc fun c hc => (hb c hc).1)
  · have hle : ∫ c in Set.Ioc (-1) 1, sheet γ ε s c ≤ ∫ _ in Set.Ioc (-1 : ℝ) 1, s * (1 + 1 / (1 - s / γ)) := by
      refine integral_mono_of_nonneg ?_ (integrable_const _) ?_
      · exact (ae_restrict_iff' measurableSet_Ioc).2 (Filter.Eventually.of_forall fun c hc => (hb c hc).1)
      · exact (ae_restrict_iff' measurableSet_Ioc).2 (Filter.Eventually.of_forall fun c hc => (hb c hc).2)
    rw [setIntegral_const] at hle
    simp at hle
    norm_num at hle
    have e : s * (1 / 2 * (1 + 1 / (1 - s / γ))) = 1 / 4 * (2 * (s * (1 + (1 - s / γ)⁻¹))) := by
      rw [one_div (1 - s / γ)]; ring
    rw [e]
    linarith

/-- part of the energy that the kernel of SSC leaves out -/
noncomputable def omitted (γ ε : ℝ) : ℝ :=
  9 / (16 * γ ^ 4 * ε ^ 2) * ∫ s in (0)..leastEnergy γ ε, s * meanKernel γ ε s

/-- **C107** (kernel).  The energy of the scattered photons is what Klein and Nishina's formula gives for photons from
all directions, less the photons which lose energy; and these have next to none. -/
theorem C107_kernel (hγ : 1 ≤ γ) (hr : ftiny ≤ 1 / (4 * γ ^ 2)) (he : 0 < ε) :
    IntervalIntegrable (fun s => s * isotropicKernel γ ε s) volume 0 γ
    ∧ 3 / (4 * γ ^ 2 * ε) * ∫ s in (0)..γ, s * isotropicKernel γ ε s
      = 4 / 3 * γ ^ 2 * ε * (Compton.isoLoss (4 * γ * ε) - omitted γ ε)
    ∧ 0 ≤ omitted γ ε ∧ omitted γ ε ≤ 9 / (32 * γ ^ 4) * (1 + ε / (2 * γ)) := by
  have h0 : 0 < γ := by linarith
  have hL : 0 < leastEnergy γ ε := by unfold leastEnergy; positivity
  have hLγ : leastEnergy γ ε < γ := by
    unfold leastEnergy; rw [div_lt_iff₀ (by positivity)]; nlinarith
  have hLε : leastEnergy γ ε ≤ ε := by
    unfold leastEnergy; rw [div_le_iff₀ (by positivity)]; nlinarith
  have hi := integrable_mean h0 he
  have hi1 : IntervalIntegrable (fun s => s * meanKernel γ ε s) volume 0 (leastEnergy γ ε) :=
    hi.mono_set (by rw [Set.uIcc_of_le hL.le, Set.uIcc_of_le h0.le]; exact Set.Icc_subset_Icc_right hLγ.le)
  have hi2 : IntervalIntegrable (fun s => s * meanKernel γ ε s) volume (leastEnergy γ ε) γ :=
    hi.mono_set (by rw [Set.uIcc_of_le hLγ.le, Set.uIcc_of_le h0.le]; exact Set.Icc_subset_Icc_left hL.le)
  have hLI : leastEnergy γ ε ∈ Set.Ioc 0 γ := ⟨hL, hLγ.le⟩
  have hiso : ∀ s ∈ Set.Ioc 0 γ, (Set.Ici (leastEnergy γ ε)).indicator (fun s => s * meanKernel γ ε s) s
      = s * isotropicKernel γ ε s := by
    intro s hs
    obtain ⟨h1, h2⟩ := isotropic_cut hγ hr he hs.1
    by_cases h : leastEnergy γ ε ≤ s
    · rw [Set.indicator_of_mem (Set.mem_Ici.2 h), h1 h]
    · rw [Set.indicator_of_notMem (by simpa using h), h2 (not_le.1 h), mul_zero]
  have hint : IntegrableOn (fun s => s * isotropicKernel γ ε s) (Set.Ioc 0 γ) :=
    IntegrableOn.congr_fun (((intervalIntegrable_iff_integrableOn_Ioc_of_le h0.le).1 hi).indicator measurableSet_Ici)
      hiso measurableSet_Ioc
  have hval : ∫ s in (0)..γ, s * isotropicKernel γ ε s = ∫ s in leastEnergy γ ε..γ, s * meanKernel γ ε s := by
    rw [intervalIntegral.integral_of_le h0.le, intervalIntegral.integral_of_le hLγ.le,
      ← setIntegral_congr_fun measurableSet_Ioc hiso, setIntegral_indicator measurableSet_Ici,
      ← integral_Icc_eq_integral_Ioc]
    congr 2
    ext x
    simp only [Set.mem_inter_iff, Set.mem_Ioc, Set.mem_Ici, Set.mem_Icc]
    constructor
    · rintro ⟨⟨_, h2⟩, h3⟩; exact ⟨h3, h2⟩
    · rintro ⟨h3, h2⟩; exact ⟨⟨hL.trans_le h3, h2⟩, h3⟩
  have hsplit := intervalIntegral.integral_add_adjacent_intervals hi1 hi2
  have hmean := C107_mean h0 he
  have hb : ∀ s ∈ Set.Icc 0 (leastEnergy γ ε), 0 ≤ s * meanKernel γ ε s
      ∧ s * meanKernel γ ε s ≤ s * (1 + ε / (2 * γ)) := by
    intro s hs
    rcases eq_or_lt_of_le hs.1 with h | h
    · rw [← h]; simp
    · obtain ⟨l, u⟩ := mean_bounds h0 he h (hs.2.trans_lt hLγ)
      refine ⟨l, u.trans (mul_le_mul_of_nonneg_left ?_ h.le)⟩
      have hs' : s * (γ + ε) ≤ γ * ε := by
        have := hs.2
        unfold leastEnergy at this
        rwa [le_div_iff₀ (by positivity)] at this
      have hsγ : 0 < γ - s := by linarith [hs.2]
      have e : 1 / (1 - s / γ) = γ / (γ - s) := by
        have : γ - s ≠ 0 := hsγ.ne'
        field_simp
      have : γ / (γ - s) ≤ 1 + ε / γ := by
        rw [div_le_iff₀ hsγ, ← sub_nonneg]
        have e2 : (1 + ε / γ) * (γ - s) - γ = (γ * ε - s * (γ + ε)) / γ := by field_simp; ring
        rw [e2]
        exact div_nonneg (by linarith) h0.le
      rw [e]
      have e3 : ε / (2 * γ) = 1 / 2 * (ε / γ) := by field_simp
      rw [e3]
      linarith
  refine ⟨(intervalIntegrable_iff_integrableOn_Ioc_of_le h0.le).2 hint, ?_, ?_, ?_⟩
  · rw [hval]
    unfold omitted
    rw [mul_sub, ← hmean, ← hsplit]
    generalize ∫ s in (0)..leastEnergy γ ε, s * meanKernel γ ε s = X
    generalize ∫ s in leastEnergy γ ε..γ, s * meanKernel γ ε s = Y
    field_simp
    ring
  · exact mul_nonneg (by positivity) (intervalIntegral.integral_nonneg hL.le fun s hs => (hb s hs).1)
  · have h1 : ∫ s in (0)..leastEnergy γ ε, s * meanKernel γ ε s
        ≤ ∫ s in (0)..leastEnergy γ ε, s * (1 + ε / (2 * γ)) :=
      intervalIntegral.integral_mono_on hL.le hi1 (by apply Continuous.intervalIntegrable; fun_prop)
        fun s hs => (hb s hs).2
    rw [intervalIntegral.integral_mul_const, integral_id] at h1
    have h2 : (leastEnergy γ ε ^ 2 - 0 ^ 2) / 2 * (1 + ε / (2 * γ)) ≤ ε ^ 2 / 2 * (1 + ε / (2 * γ)) := by
      refine mul_le_mul_of_nonneg_right ?_ (by positivity)
      have := pow_le_pow_left₀ hL.le hLε 2
      linarith
    have h3 := mul_le_mul_of_nonneg_left (h1.trans h2) (show 0 ≤ 9 / (16 * γ ^ 4 * ε ^ 2) by positivity)
    refine h3.trans (le_of_eq ?_)
    field_simp
    ring

/-- the hypotheses are met by an electron of `γ = 100` and an X-ray photon, whose losses are far from Thomson's -/
example : (1 : ℝ) ≤ 100 ∧ MathUtils.ftiny ≤ 1 / (4 * (100 : ℝ) ^ 2) ∧ (0 : ℝ) < 1 / 100
    ∧ omitted 100 (1 / 100) ≤ 9 / (32 * (100 : ℝ) ^ 4) * (1 + 1 / 100 / (2 * 100)) := by
  have h1 : (2 : ℝ) ^ 24 ≤ 2 ^ 1022 := pow_le_pow_right₀ (by norm_num) (by norm_num)
  have h : MathUtils.ftiny ≤ 1 / (4 * (100 : ℝ) ^ 2) := by
    unfold MathUtils.ftiny
    exact one_div_le_one_div_of_le (by norm_num) (le_trans (by norm_num) h1)
  exact ⟨by norm_num, h, by norm_num, (C107_kernel (by norm_num) h (by norm_num)).2.2.2⟩

end Verif.Kernels
