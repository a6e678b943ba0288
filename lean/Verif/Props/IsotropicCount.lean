import Verif.Props.SSCEnergy

/-
C102, for SSC: every collision of an electron with a synchrotron photon gives one scattered photon.
-/

namespace Verif.Kernels

open MathUtils Geometry MeasureTheory

variable {γ ε : ℝ}

/-- the kernel, on the directions and the energies at which it does not vanish -/
noncomputable def leaf (γ ε s c : ℝ) : ℝ :=
  open Classical in if (0 < s ∧ s < γ) ∧ c < 1 ∧ Allowed γ s ε c then inside γ (targetEnergy γ ε c) s else 0

theorem leaf_eq (hγ : 0 < γ) (he : 0 < ε) {s c φ : ℝ} (hs : 0 < s) (hc : c ≤ 1) :
    comptonKernel γ s ε 1 c φ = leaf γ ε s c := by
  have h := sheet_eq (φ := φ) hγ he hs hc
  have e : sheet γ ε s c = s * leaf γ ε s c := by
    unfold sheet leaf
    split_ifs <;> simp
  rw [e] at h
  exact mul_left_cancel₀ hs.ne' h

theorem measurable_leaf : Measurable fun p : ℝ × ℝ => leaf γ ε p.1 p.2 := by
  unfold leaf
  refine Measurable.ite ?_ ?_ measurable_const
  · have h1 : MeasurableSet {p : ℝ × ℝ | 0 < p.1 ∧ p.1 < γ} :=
      (measurableSet_lt measurable_const measurable_fst).inter (measurableSet_lt measurable_fst measurable_const)
    have h2 : MeasurableSet {p : ℝ × ℝ | p.2 < 1} := measurableSet_lt measurable_snd measurable_const
    have h3 : MeasurableSet {p : ℝ × ℝ | Allowed γ p.1 ε p.2} := by
      unfold Allowed
      exact measurableSet_le (by fun_prop) (by fun_prop)
    exact h1.inter (h2.inter h3)
  · unfold inside targetEnergy
    fun_prop

theorem leaf_bounds (hγ : 0 < γ) (he : 0 < ε) {s c : ℝ} (hc : -1 ≤ c) :
    0 ≤ leaf γ ε s c ∧ leaf γ ε s c ≤ 2 + 4 * γ * ε := by
  unfold leaf
  split_ifs with h
  · obtain ⟨⟨hs, hs'⟩, hc1, ha⟩ := h
    obtain ⟨l, u⟩ := inside_bounds hγ he hs hc1 ha
    have := allowed_y hγ he hs hc1 hc ha
    exact ⟨l, by linarith⟩
  · exact ⟨le_rfl, by positivity⟩

theorem integrable_leaf (hγ : 0 < γ) (he : 0 < ε) :
    Integrable (Function.uncurry fun s c => leaf γ ε s c)
      ((volume.restrict (Set.Ioc 0 γ)).prod (volume.restrict (Set.Ioc (-1) 1))) := by
  refine Integrable.of_bound (C := 2 + 4 * γ * ε) measurable_leaf.aestronglyMeasurable ?_
  rw [Measure.prod_restrict, ae_restrict_iff' (measurableSet_Ioc.prod measurableSet_Ioc)]
  refine Filter.Eventually.of_forall fun p hp => ?_
  obtain ⟨l, u⟩ := leaf_bounds (s := p.1) (c := p.2) hγ he hp.2.1.le
  change ‖leaf γ ε p.1 p.2‖ ≤ _
  rw [Real.norm_of_nonneg l]
  exact u

theorem mean_leaf (hγ : 0 < γ) (he : 0 < ε) {s : ℝ} (hs : 0 < s) :
    meanKernel γ ε s = 1 / 4 * ∫ c in Set.Ioc (-1) 1, leaf γ ε s c := by
  unfold meanKernel
  rw [intervalIntegral.integral_of_le (by norm_num)]
  congr 1
  exact setIntegral_congr_fun measurableSet_Ioc fun c hc => leaf_eq hγ he hs hc.2

theorem integrable_meanKernel (hγ : 0 < γ) (he : 0 < ε) :
    IntervalIntegrable (fun s => meanKernel γ ε s) volume 0 γ := by
  rw [intervalIntegrable_iff_integrableOn_Ioc_of_le hγ.le]
  have h := (integrable_leaf hγ he).integral_prod_left.const_mul (1 / 4)
  refine IntegrableOn.congr_fun (f := fun s => 1 / 4 * ∫ c in Set.Ioc (-1) 1, leaf γ ε s c) h ?_ measurableSet_Ioc
  intro s hs
  exact (mean_leaf hγ he hs.1).symm

/-- the cross-section in units of Thomson's, mean over the directions of the photons with the rate of their coming -/
noncomputable def isoCross (γ ε : ℝ) : ℝ :=
  1 / 2 * ∫ c in (-1)..1, (1 - c) * kleinNishina (targetEnergy γ ε c)

theorem count_direction (hγ : 0 < γ) (he : 0 < ε) {c : ℝ} (hc : c ≤ 1) :
    ∫ s in Set.Ioc 0 γ, leaf γ ε s c = 8 / 3 * γ ^ 2 * ε * ((1 - c) * kleinNishina (targetEnergy γ ε c)) := by
  rcases eq_or_lt_of_le hc with h1 | h1
  · have e0 : ∫ s in Set.Ioc 0 γ, leaf γ ε s c = ∫ s in Set.Ioc 0 γ, (0 : ℝ) := by
      refine setIntegral_congr_fun measurableSet_Ioc fun s _ => ?_
      unfold leaf
      rw [if_neg (fun h => absurd h.2.1 (by rw [h1]; exact lt_irrefl 1))]
    rw [e0, integral_zero, h1, sub_self, zero_mul, mul_zero]
  · have e : ∫ s in Set.Ioc 0 γ, leaf γ ε s c = ∫ s in (0)..γ, comptonKernel γ s ε 1 c 0 := by
      rw [intervalIntegral.integral_of_le hγ.le]
      exact setIntegral_congr_fun measurableSet_Ioc fun s hs => (leaf_eq hγ he hs.1 hc).symm
    rw [e, C102_count hγ he (by rw [C38_aligned]; exact h1) le_rfl, C38_aligned]
    generalize kleinNishina (targetEnergy γ ε c) = K
    unfold targetEnergy
    ring

theorem integrable_cross (hγ : 0 < γ) (he : 0 < ε) :
    IntervalIntegrable (fun c => (1 - c) * kleinNishina (targetEnergy γ ε c)) volume (-1) 1 := by
  rw [intervalIntegrable_iff_integrableOn_Ioc_of_le (by norm_num)]
  have h := (integrable_leaf hγ he).integral_prod_right.const_mul (1 / (8 / 3 * γ ^ 2 * ε))
  refine IntegrableOn.congr_fun (f := fun c => 1 / (8 / 3 * γ ^ 2 * ε) * ∫ s in Set.Ioc 0 γ, leaf γ ε s c) h ?_
    measurableSet_Ioc
  intro c hc
  simp only [count_direction hγ he hc.2]
  generalize kleinNishina (targetEnergy γ ε c) = K
  field_simp

theorem count_mean (hγ : 0 < γ) (he : 0 < ε) :
    3 / (4 * γ ^ 2 * ε) * ∫ s in (0)..γ, meanKernel γ ε s = isoCross γ ε := by
  have e1 : ∫ s in (0)..γ, meanKernel γ ε s
      = 1 / 4 * ∫ s in Set.Ioc 0 γ, ∫ c in Set.Ioc (-1) 1, leaf γ ε s c := by
    rw [intervalIntegral.integral_of_le hγ.le, ← integral_const_mul]
    exact setIntegral_congr_fun measurableSet_Ioc fun s hs => mean_leaf hγ he hs.1
  have e2 : ∫ c in Set.Ioc (-1) 1, ∫ s in Set.Ioc 0 γ, leaf γ ε s c
      = ∫ c in (-1)..1, 8 / 3 * γ ^ 2 * ε * ((1 - c) * kleinNishina (targetEnergy γ ε c)) := by
    rw [intervalIntegral.integral_of_le (by norm_num)]
    exact setIntegral_congr_fun measurableSet_Ioc fun c hc => count_direction hγ he hc.2
  rw [e1, integral_integral_swap (integrable_leaf hγ he), e2, intervalIntegral.integral_const_mul]
  unfold isoCross
  generalize ∫ c in (-1 : ℝ)..1, (1 - c) * kleinNishina (targetEnergy γ ε c) = X
  field_simp
  ring

/-- part of the photons that the kernel of SSC leaves out -/
noncomputable def missed (γ ε : ℝ) : ℝ := 3 / (4 * γ ^ 2 * ε) * ∫ s in (0)..leastEnergy γ ε, meanKernel γ ε s

/-- **C102** (kernel of SSC).  The kernel counts the collisions with photons from all directions, less those in which the
photon loses energy. -/
theorem C102_isotropic (hγ : 1 ≤ γ) (hr : ftiny ≤ 1 / (4 * γ ^ 2)) (he : 0 < ε) :
    IntervalIntegrable (fun s => isotropicKernel γ ε s) volume 0 γ
    ∧ 3 / (4 * γ ^ 2 * ε) * ∫ s in (0)..γ, isotropicKernel γ ε s = isoCross γ ε - missed γ ε
    ∧ 0 ≤ missed γ ε ∧ missed γ ε ≤ 3 / (4 * γ ^ 2) * (1 + ε / (2 * γ)) := by
  have h0 : 0 < γ := by linarith
  have hL : 0 < leastEnergy γ ε := by unfold leastEnergy; positivity
  have hLγ : leastEnergy γ ε < γ := by
    unfold leastEnergy; rw [div_lt_iff₀ (by positivity)]; nlinarith
  have hLε : leastEnergy γ ε ≤ ε := by
    unfold leastEnergy; rw [div_le_iff₀ (by positivity)]; nlinarith
  have hi := integrable_meanKernel h0 he
  have hi1 : IntervalIntegrable (fun s => meanKernel γ ε s) volume 0 (leastEnergy γ ε) :=
    hi.mono_set (by rw [Set.uIcc_of_le hL.le, Set.uIcc_of_le h0.le]; exact Set.Icc_subset_Icc_right hLγ.le)
  have hi2 : IntervalIntegrable (fun s => meanKernel γ ε s) volume (leastEnergy γ ε) γ :=
    hi.mono_set (by rw [Set.uIcc_of_le hLγ.le, Set.uIcc_of_le h0.le]; exact Set.Icc_subset_Icc_left hL.le)
  have hiso : ∀ s ∈ Set.Ioc 0 γ, (Set.Ici (leastEnergy γ ε)).indicator (fun s => meanKernel γ ε s) s
      = isotropicKernel γ ε s := by
    intro s hs
    obtain ⟨h1, h2⟩ := isotropic_cut hγ hr he hs.1
    by_cases h : leastEnergy γ ε ≤ s
    · rw [Set.indicator_of_mem (Set.mem_Ici.2 h), h1 h]
    · rw [Set.indicator_of_notMem (by simpa using h), h2 (not_le.1 h)]
  have hint : IntegrableOn (fun s => isotropicKernel γ ε s) (Set.Ioc 0 γ) :=
    IntegrableOn.congr_fun (((intervalIntegrable_iff_integrableOn_Ioc_of_le h0.le).1 hi).indicator measurableSet_Ici)
      hiso measurableSet_Ioc
  have hval : ∫ s in (0)..γ, isotropicKernel γ ε s = ∫ s in leastEnergy γ ε..γ, meanKernel γ ε s := by
    rw [intervalIntegral.integral_of_le h0.le, intervalIntegral.integral_of_le hLγ.le,
      ← setIntegral_congr_fun measurableSet_Ioc hiso, setIntegral_indicator measurableSet_Ici,
      ← integral_Icc_eq_integral_Ioc]
    congr 2
    ext x
    simp only [Set.mem_inter_iff, Set.mem_Ioc, Set.mem_Ici, Set.mem_Icc]
    constructor
    · rintro ⟨⟨_, h2⟩, h3⟩; exact ⟨h3, h2⟩
    · rintro ⟨h3, h2⟩; exact ⟨⟨hL.trans_le h3, h2⟩, h3⟩
  have hsplit := intervalIntegral.integral_add_adjacent_intervals hi1 hi2
  have hmean := count_mean h0 he
  have hb : ∀ s ∈ Set.Ioc 0 (leastEnergy γ ε), 0 ≤ meanKernel γ ε s ∧ meanKernel γ ε s ≤ 1 + ε / (2 * γ) := by
    intro s hs
    obtain ⟨l, u⟩ := mean_bounds h0 he hs.1 (hs.2.trans_lt hLγ)
    refine ⟨by by_contra h; nlinarith [hs.1], (le_of_mul_le_mul_left u hs.1).trans ?_⟩
    have hs' : s * (γ + ε) ≤ γ * ε := by
      have := hs.2
      unfold leastEnergy at this
      rwa [le_div_iff₀ (by positivity)] at this
    have hsγ : 0 < γ - s := by linarith [hs.2]
    have e : 1 / (1 - s / γ) = γ / (γ - s) := by
      have : γ - s ≠ 0 := hsγ.ne'
      field_simp
    have : γ / (γ - s) ≤ 1 + ε / γ := by
      rw [div_le_iff₀ hsγ, ← sub_nonneg]
      have e2 : (1 + ε / γ) * (γ - s) - γ = (γ * ε - s * (γ + ε)) / γ := by field_simp; ring
      rw [e2]
      exact div_nonneg (by linarith) h0.le
    rw [e]
    have e3 : ε / (2 * γ) = 1 / 2 * (ε / γ) := by field_simp
    rw [e3]
    linarith
  have hn : 0 ≤ ∫ s in (0)..leastEnergy γ ε, meanKernel γ ε s := by
    rw [intervalIntegral.integral_of_le hL.le]
    exact setIntegral_nonneg measurableSet_Ioc fun s hs => (hb s hs).1
  have hu : ∫ s in (0)..leastEnergy γ ε, meanKernel γ ε s ≤ leastEnergy γ ε * (1 + ε / (2 * γ)) := by
    have : ∫ s in (0)..leastEnergy γ ε, meanKernel γ ε s ≤ ∫ _ in (0)..leastEnergy γ ε, (1 + ε / (2 * γ)) := by
      rw [intervalIntegral.integral_of_le hL.le, intervalIntegral.integral_of_le hL.le]
      refine setIntegral_mono_on ((intervalIntegrable_iff_integrableOn_Ioc_of_le hL.le).1 hi1) (by simp) measurableSet_Ioc
        fun s hs => (hb s hs).2
    rwa [intervalIntegral.integral_const, sub_zero, smul_eq_mul] at this
  refine ⟨(intervalIntegrable_iff_integrableOn_Ioc_of_le h0.le).2 hint, ?_, ?_, ?_⟩
  · rw [hval]
    unfold missed
    rw [← hmean, ← hsplit]
    ring
  · exact mul_nonneg (by positivity) hn
  · have h3 := mul_le_mul_of_nonneg_left (hu.trans (mul_le_mul_of_nonneg_right hLε (by positivity)))
      (show 0 ≤ 3 / (4 * γ ^ 2 * ε) by positivity)
    refine h3.trans (le_of_eq ?_)
    field_simp

/-- **C102** (limits).  At most Thomson's cross-section, and close to it for soft photons. -/
theorem C102_isotropic_bounds (hγ : 0 < γ) (he : 0 < ε) :
    1 / (1 + 4 * γ * ε) ^ 3 ≤ isoCross γ ε ∧ isoCross γ ε ≤ 1 := by
  have key : ∀ c ∈ Set.Icc (-1 : ℝ) 1,
      (1 - c) * (1 / (1 + 4 * γ * ε) ^ 3) ≤ (1 - c) * kleinNishina (targetEnergy γ ε c)
      ∧ (1 - c) * kleinNishina (targetEnergy γ ε c) ≤ 1 - c := by
    intro c hc
    rcases eq_or_lt_of_le hc.2 with h1 | h1
    · simp [h1]
    · have h2 : 0 < 1 - c := by linarith
      have ht : 0 < targetEnergy γ ε c := by unfold targetEnergy; positivity
      obtain ⟨l, u⟩ := C102_thomson_bounds ht
      refine ⟨mul_le_mul_of_nonneg_left (le_trans ?_ l) h2.le, mul_le_of_le_one_right h2.le u⟩
      refine one_div_le_one_div_of_le (by positivity) (pow_le_pow_left₀ (by positivity) ?_ 3)
      unfold targetEnergy
      nlinarith [mul_pos hγ he, hc.1]
  have hi := integrable_cross hγ he
  have hT : IntervalIntegrable (fun c : ℝ => 1 - c) volume (-1) 1 := by
    apply Continuous.intervalIntegrable; fun_prop
  have hv : ∫ c in (-1 : ℝ)..1, (1 - c) = 2 := by
    rw [intervalIntegral.integral_sub (by simp) (by simp), integral_id]; norm_num
  have l := intervalIntegral.integral_mono_on (by norm_num) (hT.mul_const (1 / (1 + 4 * γ * ε) ^ 3)) hi
    fun c hc => (key c hc).1
  have u := intervalIntegral.integral_mono_on (by norm_num) hi hT fun c hc => (key c hc).2
  rw [intervalIntegral.integral_mul_const, hv] at l
  rw [hv] at u
  unfold isoCross
  constructor <;> linarith

end Verif.Kernels

namespace Verif.Compton

open MathUtils Spectra Geometry Kernels Region MeasureTheory Synchrotron

variable {m : ℝ} {k : Consts} {z d_L δ B R_b : ℝ} {d : Spectra.Dist} {gamma : List ℝ}

theorem counted_isotropic {g ε κ : ℝ} (hg : 1 ≤ g) (hr : ftiny ≤ 1 / (4 * g ^ 2)) (he : 0 < ε) (hκ : 0 < κ)
    (hm : g ≤ κ * m) :
    Counted m (fun nu => isotropicKernel g ε (κ * nu)) (1 / κ * (4 / 3 * g ^ 2 * ε * (isoCross g ε - missed g ε))) := by
  have h0 : 0 < g := by linarith
  obtain ⟨hi, hv, _⟩ := C102_isotropic hg hr he
  obtain ⟨i, e⟩ := on_pieces (f := fun s => isotropicKernel g ε s) h0.le hm hi (fun _ _ _ => rfl)
    (fun s hs _ => C40_energy h0 he hs.le) rfl
  refine ⟨?_, ?_⟩
  · have := i.comp_mul_left (c := κ)
    simpa [hκ.ne'] using this
  · rw [intervalIntegral.integral_comp_mul_left (fun s => isotropicKernel g ε s) hκ.ne', mul_zero, e, smul_eq_mul, ← hv]
    generalize ∫ s in (0)..g, isotropicKernel g ε s = X
    field_simp

/-- number of photons an electron scatters per unit time, among photons from all directions whose energy density is `u`
by photon energy, summed over photon energies as the code does; photons which gain no energy are left out -/
noncomputable def scatterRate (k : Consts) (nus : List ℝ) (u eps : ℝ → ℝ) (g : ℝ) : ℝ :=
  trapz (nus.map fun nu => k.sigma_T * k.c * (u nu / (eps nu * k.mec2)) * (isoCross g (eps nu) - missed g (eps nu)))
    (nus.map eps)

/-- **C102** (SSC).  The photons received through the SED of SSC are the collisions of electrons with synchrotron
photons. -/
theorem C102_ssc (ssa : Bool) (hk : k.Pos) (hz : 0 ≤ z) (hδ : 0 < δ) (hm : 0 ≤ m)
    (hg : ∀ g ∈ sscGrid ssa d gamma, 1 ≤ g ∧ ftiny ≤ 1 / (4 * g ^ 2) ∧ g ≤ perNu k.m_e k z δ * m) :
    photonFlux k m (fun nu => sscSed k trapz ssa nu z d_L δ B R_b d gamma)
      = (1 + z) * δ ^ 3 / (4 * Real.pi * d_L ^ 2)
        * Verif.over trapz (sscGrid ssa d gamma) fun g =>
          (4 / 3 * Real.pi * R_b ^ 3) * d.call g
            * scatterRate k nuToIntegrate
              (fun nu => uPhSynchDiff k R_b d_L δ (nuToEps k nu z δ) (sedFlux k trapz ssa nu z d_L δ B R_b d gamma))
              (fun nu => nuToEps k nu z δ) g := by
  have hc := hk.c
  have hh := hk.h
  have hme := hk.m_e
  have hz1 : 0 < 1 + z := by linarith
  have hκ : 0 < perNu k.m_e k z δ := by unfold perNu; positivity
  have hmec : 0 < k.mec2 := by unfold Consts.mec2; positivity
  have hκe : perNu k.m_e k z δ = (1 + z) * k.h / (δ * k.mec2) := by unfold perNu Consts.mec2; field_simp
  set κ := perNu k.m_e k z δ
  set u : ℝ → ℝ := fun nu => uPhSynchDiff k R_b d_L δ (nuToEps k nu z δ) (sedFlux k trapz ssa nu z d_L δ B R_b d gamma)
    with hu
  set eps : ℝ → ℝ := fun nu => nuToEps k nu z δ with heps
  set grid := sscGrid ssa d gamma with hgrid
  have hp : ∀ nu ∈ nuToIntegrate, 0 < eps nu := fun nu hnu => nuToEps_pos hk (logspace_pos nu hnu) hz hδ
  have h1 : List.Forall₂ (Counted m)
      (nuToIntegrate.map fun nu' nu => Verif.over trapz grid fun g =>
        u nu' / eps nu' ^ 2 * (volume R_b * d.call g) / g ^ 2 * isotropicKernel g (eps nu') (κ * nu))
      (nuToIntegrate.map fun nu' => Verif.over trapz grid fun g =>
        u nu' / eps nu' ^ 2 * (volume R_b * d.call g) / g ^ 2
          * (1 / κ * (4 / 3 * g ^ 2 * eps nu' * (isoCross g (eps nu') - missed g (eps nu'))))) := by
    rw [List.forall₂_map_left_iff, List.forall₂_map_right_iff]
    refine List.forall₂_same.2 fun nu' hnu' => ?_
    refine counted_over fun g hg' => ?_
    obtain ⟨g1, g2, g3⟩ := hg g hg'
    exact (counted_isotropic g1 g2 (hp nu' hnu') hκ g3).const_mul _
  have h2 := counted_trapz h1 (nuToIntegrate.map eps)
  have hT := h2.congr hm (G := fun nu => trapz (nuToIntegrate.map fun nu' => Verif.over trapz grid fun g =>
        u nu' / eps nu' ^ 2 * (volume R_b * d.call g) / g ^ 2 * isotropicKernel g (eps nu') (κ * nu))
        (nuToIntegrate.map eps)) (fun nu _ _ => by
      rw [List.map_map]
      rfl)
  have h3 := flux_of (k := k) (κ := κ) (P := δ ^ 4 / (4 * Real.pi * d_L ^ 2) * (3 / 4 * k.c * k.sigma_T)) hm hT
    (sed := fun nu => sscSed k trapz ssa nu z d_L δ B R_b d gamma) (fun nu => by
      rw [← nuToEps_perNu]
      unfold sscSed
      simp only [mul_assoc]
      rfl)
  rw [h3, trapz_over, over_mul', over_mul']
  refine over_congr' fun g hg' => ?_
  have g0 : 0 < g := by linarith [(hg g hg').1]
  unfold scatterRate
  rw [← C33_trapz_scale, ← C33_trapz_scale, ← C33_trapz_scale, List.map_map, List.map_map, List.map_map]
  congr 1
  refine List.map_congr_left fun nu hnu => ?_
  have e0 := (hp nu hnu).ne'
  simp only [Function.comp, hκe]
  unfold Synchrotron.volume
  field_simp

/-- the hypotheses of `C102_ssc` are met by the distribution of `demoBlob`, with frequencies up to 10000 -/
example : ∀ g ∈ sscGrid false demoBlob.n_e demoBlob.gamma_e,
    1 ≤ g ∧ ftiny ≤ 1 / (4 * g ^ 2) ∧ g ≤ perNu naturalConsts.m_e naturalConsts demoBlob.z demoBlob.delta_D * 10000 := by
  intro g hg
  simp only [sscGrid, Bool.false_eq_true, if_false, demoBlob_good.afterCall] at hg
  obtain ⟨g1, g2⟩ := logspace_mem_Icc demoBlob_good.pos demoBlob_good.lt demoBlob_good.size hg
  have e1 : demoBlob.n_e.gmin = 10 := rfl
  have e2 : demoBlob.n_e.gmax = 1000 := rfl
  rw [e1] at g1
  rw [e2] at g2
  refine ⟨by linarith, ftiny_small (by positivity) (by nlinarith), g2.trans ?_⟩
  norm_num [demoBlob, perNu, naturalConsts]

end Verif.Compton
