import Verif.Props.KernelSums

/-
C105: the kernel of external Compton is the differential cross-section of Klein and Nishina.

Specification, apart from the code: a photon of energy `a` (in m_e c²) scattered by the angle of cosine `c` off an
electron at rest keeps the fraction `shift a c` of its energy; angles are distributed as `differential a`; in the frame in
which the electron had the energy `γ` the photon gets the energy `γ (1 - shift a c)`, which the electron loses.
-/

namespace Verif.Kernels

open MathUtils Geometry MeasureTheory

/-- the cross-section of Klein and Nishina per cosine of the scattering angle, in units of Thomson's -/
noncomputable def differential (a c : ℝ) : ℝ := 3 / 8 * (shift a c ^ 2 * (shift a c + 1 / shift a c - (1 - c ^ 2)))

/-- energy given to the photon by an electron of energy `γ` -/
noncomputable def given (γ a c : ℝ) : ℝ := γ * (1 - shift a c)

/-- mean of a quantity over the collisions, times their number (in units of Thomson's) -/
noncomputable def collisions (a : ℝ) (h : ℝ → ℝ) : ℝ := ∫ c in (-1)..1, h c * differential a c

variable {a c γ : ℝ}

theorem shift_bounds (ha : 0 < a) (hc : c ∈ Set.Icc (-1 : ℝ) 1) : 1 / (1 + 2 * a) ≤ shift a c ∧ shift a c ≤ 1 := by
  have h0 : 0 ≤ 1 - c := by linarith [hc.2]
  have h1 : 1 - c ≤ 2 := by linarith [hc.1]
  unfold shift
  constructor
  · apply one_div_le_one_div_of_le (by positivity)
    nlinarith
  · rw [div_le_one (by positivity)]
    nlinarith

theorem shift_pos (ha : 0 < a) (hc : c ∈ Set.Icc (-1 : ℝ) 1) : 0 < shift a c :=
  lt_of_lt_of_le (by positivity) (shift_bounds ha hc).1

theorem continuousAt_shift (ha : 0 < a) (hc : c ∈ Set.Icc (-1 : ℝ) 1) : ContinuousAt (shift a) c := by
  have h : 1 + a * (1 - c) ≠ 0 := by
    have : 0 ≤ 1 - c := by linarith [hc.2]
    positivity
  unfold shift; fun_prop (disch := assumption)

theorem continuousOn_differential (ha : 0 < a) : ContinuousOn (differential a) (Set.Icc (-1) 1) := by
  intro c hc
  have h2 : shift a c ≠ 0 := (shift_pos ha hc).ne'
  have h3 := continuousAt_shift ha hc
  apply ContinuousAt.continuousWithinAt
  unfold differential
  fun_prop (disch := assumption)

theorem continuousOn_given (ha : 0 < a) : ContinuousOn (given γ a) (Set.Icc (-1) 1) := by
  intro c hc
  have h3 := continuousAt_shift ha hc
  apply ContinuousAt.continuousWithinAt
  unfold given
  fun_prop

theorem hasDerivAt_given (ha : 0 < a) (hc : c ∈ Set.Icc (-1 : ℝ) 1) :
    HasDerivAt (given γ a) (-(γ * a * shift a c ^ 2)) c := by
  have h : 1 + a * (1 - c) ≠ 0 := by
    have : 0 ≤ 1 - c := by linarith [hc.2]
    positivity
  have d0 : HasDerivAt (fun c : ℝ => 1 + a * (1 - c)) (-a) c := by
    have := (((hasDerivAt_id c).const_sub 1).const_mul a).const_add 1
    simpa using this
  have d := ((d0.inv h).const_sub 1).const_mul γ
  refine (d.congr_deriv ?_).congr_of_eventuallyEq ?_
  · unfold shift; field_simp
  · refine Filter.Eventually.of_forall fun t => ?_
    simp [given, shift]

/-- inside the kinematic limit the kernel is the differential cross-section -/
theorem inside_given (hγ : 0 < γ) (ha : 0 < a) (hc : c ∈ Set.Icc (-1 : ℝ) 1) :
    inside γ a (given γ a c) = shift a c + 1 / shift a c - (1 - c ^ 2) := by
  have hp := shift_pos ha hc
  have hw : c = 1 - (1 - shift a c) / (a * shift a c) := by
    have : 0 ≤ 1 - c := by linarith [hc.2]
    have : 0 < 1 + a * (1 - c) := by positivity
    unfold shift
    field_simp
    ring
  have e : given γ a c / γ = 1 - shift a c := by unfold given; field_simp
  unfold inside
  rw [e, show given γ a c = γ * (1 - shift a c) from rfl]
  generalize shift a c = p at *
  subst hw
  have : 1 - (1 - p) = p := by ring
  rw [this]
  field_simp
  ring

theorem distribution_aux {ε mu_s mu φ m : ℝ} (hγ : 0 < γ) (he : 0 < ε) (hc : cosPsi mu_s mu φ < 1) (hm : γ ≤ m)
    {h : ℝ → ℝ} (hh : ContinuousOn h (Set.Icc 0 γ)) :
    IntervalIntegrable (fun s => h s * comptonKernel γ s ε mu_s mu φ) volume 0 m
    ∧ ∫ s in (0)..m, h s * comptonKernel γ s ε mu_s mu φ
      = 8 / 3 * γ * targetEnergy γ ε (cosPsi mu_s mu φ)
        * collisions (targetEnergy γ ε (cosPsi mu_s mu φ)) fun c => h (given γ (targetEnergy γ ε (cosPsi mu_s mu φ)) c) := by
  have h1c : 0 < 1 - cosPsi mu_s mu φ := by linarith
  have ha : 0 < targetEnergy γ ε (cosPsi mu_s mu φ) := by unfold targetEnergy; positivity
  set a := targetEnergy γ ε (cosPsi mu_s mu φ) with hdef
  have hX : 2 * γ * a / (1 + 2 * a) < γ := by
    rw [div_lt_iff₀ (by positivity)]; nlinarith
  have hX0 : 0 < 2 * γ * a / (1 + 2 * a) := by positivity
  have hcont : ContinuousOn (fun s => h s * inside γ a s) (Set.Icc 0 (2 * γ * a / (1 + 2 * a))) := by
    refine (hh.mono (Set.Icc_subset_Icc le_rfl hX.le)).mul fun s hs => ?_
    have hs' := lt_of_le_of_lt hs.2 hX
    have hy : 1 - s / γ ≠ 0 := by
      have : 0 < 1 - s / γ := by rw [sub_pos, div_lt_one hγ]; exact hs'
      exact this.ne'
    have hg := hγ.ne'
    have := ha.ne'
    apply ContinuousAt.continuousWithinAt
    unfold inside
    fun_prop (disch := positivity)
  have hi : IntervalIntegrable (fun s => h s * inside γ a s) volume 0 (2 * γ * a / (1 + 2 * a)) := by
    apply ContinuousOn.intervalIntegrable
    rwa [Set.uIcc_of_le hX0.le]
  refine on_pieces hX0.le (hX.le.trans hm) hi (fun s h0 hs => ?_) (fun s hs _ => ?_) ?_
  · rw [comptonKernel_inside hγ h0 he hc ((allowed_iff hγ he hc).2 hs)]
  · rw [C39_zero hγ (hX0.trans hs) he hc.le (Or.inr fun h' => ?_), mul_zero]
    have := (allowed_iff hγ he hc).1 h'
    rw [← hdef] at this
    linarith
  · have g1 : given γ a 1 = 0 := by simp [given, shift]
    have g2 : given γ a (-1) = 2 * γ * a / (1 + 2 * a) := by
      have : 0 < 1 + 2 * a := by positivity
      unfold given shift
      rw [show 1 + a * (1 - -1) = 1 + 2 * a by ring]
      field_simp
      ring
    have img : given γ a '' Set.uIcc (-1) 1 ⊆ Set.Icc 0 (2 * γ * a / (1 + 2 * a)) := by
      rintro _ ⟨c, hc, rfl⟩
      rw [Set.uIcc_of_le (by norm_num)] at hc
      obtain ⟨l, u⟩ := shift_bounds ha hc
      have e : 2 * γ * a / (1 + 2 * a) = γ * (1 - 1 / (1 + 2 * a)) := by field_simp; ring
      rw [e]
      unfold given
      constructor
      · have : 0 ≤ 1 - shift a c := by linarith
        positivity
      · exact mul_le_mul_of_nonneg_left (by linarith) hγ.le
    have sub := intervalIntegral.integral_comp_mul_deriv'' (a := -1) (b := 1) (f := given γ a)
      (f' := fun c => -(γ * a * shift a c ^ 2)) (g := fun s => h s * inside γ a s)
      (by rw [Set.uIcc_of_le (by norm_num)]; exact continuousOn_given ha)
      (fun c hc => by
        rw [min_eq_left (by norm_num), max_eq_right (by norm_num)] at hc
        exact (hasDerivAt_given ha ⟨hc.1.le, hc.2.le⟩).hasDerivWithinAt)
      (by
        rw [Set.uIcc_of_le (by norm_num)]
        intro c hc
        have := continuousAt_shift ha hc
        apply ContinuousAt.continuousWithinAt
        fun_prop)
      (hcont.mono img)
    rw [g1, g2, intervalIntegral.integral_symm 0 (2 * γ * a / (1 + 2 * a))] at sub
    rw [← neg_inj, ← sub]
    unfold collisions
    rw [← intervalIntegral.integral_const_mul, ← intervalIntegral.integral_neg]
    refine intervalIntegral.integral_congr fun c hc => ?_
    rw [Set.uIcc_of_le (by norm_num)] at hc
    simp only [Function.comp_apply]
    rw [inside_given hγ ha hc]
    unfold differential
    ring

/-- **C105** (distribution).  The scattered photons have the energies of Klein and Nishina: whatever is summed over
them, the integral against the kernel is the sum over the collisions. -/
theorem C105_distribution {ε mu_s mu φ m : ℝ} (hγ : 0 < γ) (he : 0 < ε) (hc : cosPsi mu_s mu φ < 1) (hm : γ ≤ m)
    {h : ℝ → ℝ} (hh : ContinuousOn h (Set.Icc 0 γ)) :
    ∫ s in (0)..m, h s * comptonKernel γ s ε mu_s mu φ
      = 8 / 3 * γ * targetEnergy γ ε (cosPsi mu_s mu φ)
        * collisions (targetEnergy γ ε (cosPsi mu_s mu φ)) fun c => h (given γ (targetEnergy γ ε (cosPsi mu_s mu φ)) c) :=
  (distribution_aux hγ he hc hm hh).2

theorem collisions_one (ha : 0 < a) : collisions a (fun _ => 1) = kleinNishina a := by
  rw [C102_cross_section ha]
  unfold collisions differential
  simp only [one_mul]
  rw [intervalIntegral.integral_const_mul]

/-- energy put into photons by an electron per unit time, in units of that in the limit of Thomson -/
noncomputable def loss (a : ℝ) : ℝ := ∫ c in (-1)..1, shift a c * (1 - c) * differential a c

theorem given_eq (ha : 0 < a) (hc : c ∈ Set.Icc (-1 : ℝ) 1) : given γ a c = γ * a * (shift a c * (1 - c)) := by
  have : 0 ≤ 1 - c := by linarith [hc.2]
  have : 0 < 1 + a * (1 - c) := by positivity
  unfold given shift
  field_simp
  ring

theorem collisions_given (ha : 0 < a) : collisions a (given γ a) = γ * a * loss a := by
  unfold collisions loss
  rw [← intervalIntegral.integral_const_mul]
  refine intervalIntegral.integral_congr fun c hc => ?_
  rw [Set.uIcc_of_le (by norm_num)] at hc
  rw [given_eq ha hc]
  ring

theorem integrable_weighted (ha : 0 < a) {h : ℝ → ℝ} (hh : ContinuousOn h (Set.Icc (-1) 1)) :
    IntervalIntegrable (fun c => h c * differential a c) volume (-1) 1 := by
  apply ContinuousOn.intervalIntegrable
  rw [Set.uIcc_of_le (by norm_num)]
  exact hh.mul (continuousOn_differential ha)

theorem continuousOn_weight (ha : 0 < a) : ContinuousOn (fun c => shift a c * (1 - c)) (Set.Icc (-1) 1) := by
  intro c hc
  have := continuousAt_shift ha hc
  apply ContinuousAt.continuousWithinAt
  fun_prop

/-- the integrand of `loss` by the fraction of energy kept -/
theorem weight_eq (ha : 0 < a) (hc : c ∈ Set.Icc (-1 : ℝ) 1) :
    shift a c * (1 - c) * differential a c
      = 3 / 8 * (1 - c) * (shift a c ^ 4 + shift a c ^ 2 - shift a c ^ 3 * (1 - c ^ 2)) := by
  have hp := shift_pos ha hc
  unfold differential
  generalize shift a c = p at hp
  field_simp

theorem integral_thomson : ∫ c in (-1 : ℝ)..1, 3 / 8 * (1 - c) * (1 + c ^ 2) = 1 := by
  have e : ∀ c : ℝ, 3 / 8 * (1 - c) * (1 + c ^ 2) = 3 / 8 * (1 - c + c ^ 2 - c ^ 3) := by intro c; ring
  simp_rw [e]
  rw [intervalIntegral.integral_const_mul, intervalIntegral.integral_sub, intervalIntegral.integral_add,
    intervalIntegral.integral_sub] <;> try (apply Continuous.intervalIntegrable; fun_prop)
  simp
  norm_num

/-- **C105** (Thomson).  Electrons never lose more than in the limit of Thomson, which is approached at low energies. -/
theorem C105_thomson (ha : 0 < a) : 1 / (1 + 2 * a) ^ 3 ≤ loss a ∧ loss a ≤ 1 := by
  have hi := integrable_weighted ha (continuousOn_weight ha)
  have hT : IntervalIntegrable (fun c : ℝ => 3 / 8 * (1 - c) * (1 + c ^ 2)) volume (-1) 1 := by
    apply Continuous.intervalIntegrable; fun_prop
  have key : ∀ c ∈ Set.Icc (-1 : ℝ) 1,
      1 / (1 + 2 * a) ^ 3 * (3 / 8 * (1 - c) * (1 + c ^ 2)) ≤ shift a c * (1 - c) * differential a c
      ∧ shift a c * (1 - c) * differential a c ≤ 3 / 8 * (1 - c) * (1 + c ^ 2) := by
    intro c hc
    rw [weight_eq ha hc]
    obtain ⟨l, u⟩ := shift_bounds ha hc
    have p0 : 0 < 1 / (1 + 2 * a) := by positivity
    have s0 : 0 ≤ 1 - c ^ 2 := by nlinarith [hc.1, hc.2]
    have s1 : 0 ≤ 1 - c := by linarith [hc.2]
    have e : 1 / (1 + 2 * a) ^ 3 = (1 / (1 + 2 * a)) ^ 3 := by rw [div_pow, one_pow]
    rw [e]
    generalize 1 / (1 + 2 * a) = q at l p0
    generalize shift a c = p at l u
    have hp0 : 0 < p := p0.trans_le l
    have hq : q ^ 3 ≤ p ^ 3 := pow_le_pow_left₀ p0.le l 3
    have h43 : p ^ 4 ≤ p ^ 3 := pow_le_pow_of_le_one hp0.le u (by norm_num)
    have h3 : p ^ 3 ≤ 1 := pow_le_one₀ hp0.le u
    have h2 : p ^ 2 ≤ 1 := pow_le_one₀ hp0.le u
    have hsum : 2 * p ^ 3 ≤ p ^ 4 + p ^ 2 := by nlinarith [mul_nonneg (sq_nonneg p) (sq_nonneg (p - 1))]
    have hl : q ^ 3 * (1 + c ^ 2) ≤ p ^ 4 + p ^ 2 - p ^ 3 * (1 - c ^ 2) := by nlinarith [sq_nonneg c]
    have hu : p ^ 4 + p ^ 2 - p ^ 3 * (1 - c ^ 2) ≤ 1 + c ^ 2 := by
      nlinarith [mul_nonneg (sq_nonneg c) (sub_nonneg.2 h3)]
    constructor
    · nlinarith [mul_le_mul_of_nonneg_left hl (mul_nonneg (by norm_num : (0 : ℝ) ≤ 3 / 8) s1)]
    · nlinarith [mul_le_mul_of_nonneg_left hu (mul_nonneg (by norm_num : (0 : ℝ) ≤ 3 / 8) s1)]
  constructor
  · calc 1 / (1 + 2 * a) ^ 3 = ∫ c in (-1 : ℝ)..1, 1 / (1 + 2 * a) ^ 3 * (3 / 8 * (1 - c) * (1 + c ^ 2)) := by
          rw [intervalIntegral.integral_const_mul, integral_thomson, mul_one]
      _ ≤ loss a := intervalIntegral.integral_mono_on (by norm_num) (hT.const_mul _) hi fun c hc => (key c hc).1
  · calc loss a ≤ ∫ c in (-1 : ℝ)..1, 3 / 8 * (1 - c) * (1 + c ^ 2) :=
          intervalIntegral.integral_mono_on (by norm_num) hi hT fun c hc => (key c hc).2
      _ = 1 := integral_thomson

/-- **C105** (suppression).  The harder the target photons are in the frame of the electron, the further the losses
stay behind those of Thomson. -/
theorem C105_suppression {b : ℝ} (ha : 0 < a) (hab : a ≤ b) : loss b ≤ loss a := by
  have hb := ha.trans_le hab
  refine intervalIntegral.integral_mono_on (by norm_num) (integrable_weighted hb (continuousOn_weight hb))
    (integrable_weighted ha (continuousOn_weight ha)) fun c hc => ?_
  have s1 : 0 ≤ 1 - c := by linarith [hc.2]
  have s0 : 0 ≤ 1 - c ^ 2 := by nlinarith [hc.1, hc.2]
  have s2 : 1 - c ^ 2 ≤ 1 := by nlinarith [sq_nonneg c]
  have hle : shift b c ≤ shift a c := by
    unfold shift
    apply one_div_le_one_div_of_le (by positivity)
    nlinarith
  rw [weight_eq hb hc, weight_eq ha hc]
  have p0 := shift_pos hb hc
  generalize shift b c = p at *
  generalize shift a c = q at *
  generalize 1 - c ^ 2 = t at *
  refine mul_le_mul_of_nonneg_left ?_ (by positivity)
  have hq : 0 < q := p0.trans_le hle
  have e : q ^ 4 + q ^ 2 - q ^ 3 * t - (p ^ 4 + p ^ 2 - p ^ 3 * t)
      = (q - p) * ((q + p) * (q ^ 2 + p ^ 2 + 1) - (q ^ 2 + q * p + p ^ 2) * t) := by ring
  have : 0 ≤ (q + p) * (q ^ 2 + p ^ 2 + 1) - (q ^ 2 + q * p + p ^ 2) * t := by
    have h1 : (q ^ 2 + q * p + p ^ 2) * t ≤ q ^ 2 + q * p + p ^ 2 := by
      have : 0 ≤ q ^ 2 + q * p + p ^ 2 := by positivity
      nlinarith
    have h2 : q ^ 2 + q * p + p ^ 2 ≤ (q + p) * (q ^ 2 + p ^ 2 + 1) := by
      nlinarith [mul_nonneg hq.le (sq_nonneg (q - 1)), mul_nonneg p0.le (sq_nonneg (p - 1)), mul_pos hq p0,
        mul_pos (mul_pos hq p0) hq, mul_pos (mul_pos hq p0) p0, sq_nonneg (q - p), sq_nonneg (q + p - 1)]
    linarith
  nlinarith [mul_nonneg (sub_nonneg.2 hle) this]

/-- **C105** (energy).  The mean energy of the scattered photons stays below that of the electron. -/
theorem C105_energy (ha : 0 < a) : a * loss a ≤ 2 * a / (1 + 2 * a) * kleinNishina a := by
  have h := collisions_given (γ := 1) ha
  rw [one_mul] at h
  rw [← h, ← collisions_one ha]
  unfold collisions
  rw [← intervalIntegral.integral_const_mul]
  refine intervalIntegral.integral_mono_on (by norm_num) (integrable_weighted ha (continuousOn_given ha))
    ((integrable_weighted ha continuousOn_const).const_mul _) fun c hc => ?_
  obtain ⟨l, u⟩ := shift_bounds ha hc
  have hp := shift_pos ha hc
  have hd : 0 ≤ differential a c := by
    unfold differential
    have s0 : 1 - c ^ 2 ≤ 1 := by nlinarith [sq_nonneg c]
    have : 1 ≤ 1 / shift a c := by rw [le_div_iff₀ hp]; linarith
    have : 0 ≤ shift a c + 1 / shift a c - (1 - c ^ 2) := by linarith
    positivity
  have e : 2 * a / (1 + 2 * a) = 1 - 1 / (1 + 2 * a) := by
    have : 0 < 1 + 2 * a := by positivity
    field_simp; ring
  rw [e]
  simp only [given]
  nlinarith

end Verif.Kernels
