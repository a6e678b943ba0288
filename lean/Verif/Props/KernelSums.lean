import Mathlib.Analysis.SpecialFunctions.Integrals.Basic
import Verif.Props.Kernels

/-
C102: the Compton kernels count collisions.

Specification used here, apart from the code: the total Klein-Nishina cross-section in units of that of
Thomson, `kleinNishina`.  The integral of the kernel of external Compton over the energies of the scattered photon is
this cross-section; the kernel of SSC is the mean of the kernel of external Compton over the directions of the target
photon; in the limit of Thomson the kernel of SSC gives one photon per collision, with a mean energy of 4/3 γ² times
that of the target photon.
-/

namespace Verif.Kernels

open MathUtils Geometry MeasureTheory

/-- the total Klein-Nishina cross-section of a photon with energy `a` (in m_e c²) on an electron at rest, in units of
the Thomson cross-section -/
noncomputable def kleinNishina (a : ℝ) : ℝ :=
  3 / 4 * ((1 + a) / a ^ 3 * (2 * a * (1 + a) / (1 + 2 * a) - Real.log (1 + 2 * a))
    + Real.log (1 + 2 * a) / (2 * a) - (1 + 3 * a) / (1 + 2 * a) ^ 2)

/-- the energy of the target photon in the frame of the electron -/
def targetEnergy (γ ε c : ℝ) : ℝ := γ * ε * (1 - c)

/-- the kernel inside the kinematic limit -/
noncomputable def inside (γ a s : ℝ) : ℝ :=
  (1 - s / γ) + 1 / (1 - s / γ) - 2 * s / (γ * a * (1 - s / γ)) + s ^ 2 / (γ * a * (1 - s / γ)) ^ 2

theorem comptonKernel_inside {γ εs ε mu_s mu φ : ℝ} (hγ : 0 < γ) (hs : 0 < εs) (he : 0 < ε)
    (hc : cosPsi mu_s mu φ < 1) (h : Allowed γ εs ε (cosPsi mu_s mu φ)) :
    comptonKernel γ εs ε mu_s mu φ = inside γ (targetEnergy γ ε (cosPsi mu_s mu φ)) εs := by
  unfold comptonKernel inside targetEnergy
  dsimp only
  rw [if_pos ((C39_threshold hγ hs he hc).2 h)]
  ring

/-- antiderivative of the kernel in the energy of the scattered photon -/
noncomputable def primitive (γ a s : ℝ) : ℝ :=
  γ * (-(1 - s / γ) ^ 2 / 2 - Real.log (1 - s / γ) - 2 / a * (-Real.log (1 - s / γ) + (1 - s / γ))
    + 1 / a ^ 2 * (1 / (1 - s / γ) + 2 * Real.log (1 - s / γ) - (1 - s / γ)))

theorem hasDerivAt_primitive {γ a s : ℝ} (hγ : 0 < γ) (ha : 0 < a) (hs : s < γ) :
    HasDerivAt (primitive γ a) (inside γ a s) s := by
  have hy : 0 < 1 - s / γ := by rw [sub_pos, div_lt_one hγ]; exact hs
  have d0 : HasDerivAt (fun s : ℝ => 1 - s / γ) (-(1 / γ)) s := by
    simpa using ((hasDerivAt_id s).div_const γ).const_sub 1
  have dl := d0.log hy.ne'
  have di := d0.inv hy.ne'
  have dp := d0.pow 2
  have d := ((((dp.neg.div_const 2).sub dl).sub (((dl.neg).add d0).const_mul (2 / a))).add
    (((di.add (dl.const_mul 2)).sub d0).const_mul (1 / a ^ 2))).const_mul γ
  refine (d.congr_deriv ?_).congr_of_eventuallyEq ?_
  · unfold inside
    have hs' : s = γ * (1 - (1 - s / γ)) := by field_simp; ring
    generalize hy' : 1 - s / γ = y at hs' hy
    subst hs'
    field_simp
    ring
  · refine Filter.Eventually.of_forall fun t => ?_
    simp [primitive]

theorem allowed_iff {γ s ε c : ℝ} (hγ : 0 < γ) (he : 0 < ε) (hc : c < 1) :
    Allowed γ s ε c ↔ s ≤ 2 * γ * targetEnergy γ ε c / (1 + 2 * targetEnergy γ ε c) := by
  have h : 0 < 1 - c := by linarith
  have hb : 0 < targetEnergy γ ε c := by unfold targetEnergy; positivity
  rw [le_div_iff₀ (by positivity)]
  rfl

theorem on_pieces {f g : ℝ → ℝ} {x y z v : ℝ} (hxy : x ≤ y) (hyz : y ≤ z) (hg : IntervalIntegrable g volume x y)
    (h1 : ∀ s, x < s → s ≤ y → f s = g s) (h2 : ∀ s, y < s → s ≤ z → f s = 0)
    (hv : ∫ s in x..y, g s = v) : IntervalIntegrable f volume x z ∧ ∫ s in x..z, f s = v := by
  have a1 : ∀ᵐ s ∂volume, s ∈ Set.uIoc x y → g s = f s := by
    refine Filter.Eventually.of_forall fun s hs => ?_
    rw [Set.uIoc_of_le hxy] at hs
    exact (h1 s hs.1 hs.2).symm
  have a2 : ∀ᵐ s ∂volume, s ∈ Set.uIoc y z → (0 : ℝ) = f s := by
    refine Filter.Eventually.of_forall fun s hs => ?_
    rw [Set.uIoc_of_le hyz] at hs
    exact (h2 s hs.1 hs.2).symm
  have i1 : IntervalIntegrable f volume x y := hg.congr_ae (by
    rw [Filter.EventuallyEq, ae_restrict_iff' measurableSet_uIoc]; exact a1)
  have i2 : IntervalIntegrable f volume y z := (intervalIntegrable_const (c := (0 : ℝ))).congr_ae (by
    rw [Filter.EventuallyEq, ae_restrict_iff' measurableSet_uIoc]; exact a2)
  refine ⟨i1.trans i2, ?_⟩
  rw [← intervalIntegral.integral_add_adjacent_intervals i1 i2, ← intervalIntegral.integral_congr_ae a1,
    ← intervalIntegral.integral_congr_ae a2, hv]
  simp

theorem eq_on_pieces {f g : ℝ → ℝ} {x y z v : ℝ} (hxy : x ≤ y) (hyz : y ≤ z) (hg : IntervalIntegrable g volume x y)
    (h1 : ∀ s, x < s → s ≤ y → f s = g s) (h2 : ∀ s, y < s → s ≤ z → f s = 0)
    (hv : ∫ s in x..y, g s = v) : ∫ s in x..z, f s = v := (on_pieces hxy hyz hg h1 h2 hv).2

theorem count_aux {γ ε mu_s mu φ m : ℝ} (hγ : 0 < γ) (he : 0 < ε) (hc : cosPsi mu_s mu φ < 1) (hm : γ ≤ m) :
    IntervalIntegrable (fun s => comptonKernel γ s ε mu_s mu φ) volume 0 m
    ∧ ∫ s in (0)..m, comptonKernel γ s ε mu_s mu φ
      = 8 / 3 * γ * targetEnergy γ ε (cosPsi mu_s mu φ) * kleinNishina (targetEnergy γ ε (cosPsi mu_s mu φ)) := by
  have h1c : 0 < 1 - cosPsi mu_s mu φ := by linarith
  have ha : 0 < targetEnergy γ ε (cosPsi mu_s mu φ) := by unfold targetEnergy; positivity
  set a := targetEnergy γ ε (cosPsi mu_s mu φ) with hdef
  have hX : 2 * γ * a / (1 + 2 * a) < γ := by
    rw [div_lt_iff₀ (by positivity)]; nlinarith
  have hX0 : 0 < 2 * γ * a / (1 + 2 * a) := by positivity
  have hd : ∀ s ∈ Set.uIcc 0 (2 * γ * a / (1 + 2 * a)), HasDerivAt (primitive γ a) (inside γ a s) s := by
    intro s hs
    rw [Set.uIcc_of_le hX0.le] at hs
    exact hasDerivAt_primitive hγ ha (lt_of_le_of_lt hs.2 hX)
  have hi : IntervalIntegrable (inside γ a) volume 0 (2 * γ * a / (1 + 2 * a)) := by
    apply ContinuousOn.intervalIntegrable
    intro s hs
    rw [Set.uIcc_of_le hX0.le] at hs
    have hs' := lt_of_le_of_lt hs.2 hX
    have hy : 1 - s / γ ≠ 0 := by
      have : 0 < 1 - s / γ := by rw [sub_pos, div_lt_one hγ]; exact hs'
      exact this.ne'
    have hg := hγ.ne'
    have := ha.ne'
    apply ContinuousAt.continuousWithinAt
    unfold inside
    fun_prop (disch := positivity)
  refine on_pieces hX0.le (hX.le.trans hm) hi (fun s h0 h => ?_) (fun s h _ => ?_) ?_
  · exact comptonKernel_inside hγ h0 he hc ((allowed_iff hγ he hc).2 h)
  · refine C39_zero hγ (hX0.trans h) he hc.le (Or.inr fun h' => ?_)
    have := (allowed_iff hγ he hc).1 h'
    rw [← hdef] at this
    linarith
  · rw [intervalIntegral.integral_eq_sub_of_hasDerivAt hd hi]
    have e : 1 - 2 * γ * a / (1 + 2 * a) / γ = (1 + 2 * a)⁻¹ := by field_simp; ring
    unfold primitive kleinNishina
    rw [e, Real.log_inv]
    simp only [zero_div, sub_zero, Real.log_one]
    generalize Real.log (1 + 2 * a) = L
    have : 1 + 2 * a ≠ 0 := by positivity
    field_simp
    ring

/-- C102: the integral of the kernel of external Compton over the energies of the scattered photon is the total
Klein-Nishina cross-section: every collision gives one scattered photon -/
theorem C102_count {γ ε mu_s mu φ m : ℝ} (hγ : 0 < γ) (he : 0 < ε) (hc : cosPsi mu_s mu φ < 1) (hm : γ ≤ m) :
    ∫ s in (0)..m, comptonKernel γ s ε mu_s mu φ
      = 8 / 3 * γ * targetEnergy γ ε (cosPsi mu_s mu φ) * kleinNishina (targetEnergy γ ε (cosPsi mu_s mu φ)) :=
  (count_aux hγ he hc hm).2

/-! ### the kernel of SSC is the mean of the kernel of external Compton -/

theorem jonesQ_pos {γ ε εs : ℝ} (hγ : 0 < γ) (he : 0 < ε) (hs : 0 < εs) (h : εs < γ) : 0 < jonesQ γ ε εs := by
  have : 0 < γ - εs := by linarith
  unfold jonesQ
  positivity

theorem allowed_iff_q {γ ε εs c : ℝ} (hγ : 0 < γ) (he : 0 < ε) (h : εs < γ) :
    Allowed γ εs ε c ↔ c ≤ 1 - 2 * jonesQ γ ε εs := by
  have h0 : 0 < γ - εs := by linarith
  have e : 1 - 2 * jonesQ γ ε εs - c
      = (2 * γ * (γ * ε * (1 - c)) - εs * (1 + 2 * (γ * ε * (1 - c)))) / (2 * γ * ε * (γ - εs)) := by
    unfold jonesQ; field_simp; ring
  rw [← sub_nonneg, e]
  unfold Allowed
  rw [le_div_iff₀ (by positivity), zero_mul, sub_nonneg]

/-- antiderivative of the kernel in the cosine between photon and electron -/
noncomputable def primitiveMu (y q c : ℝ) : ℝ := (y + 1 / y) * c + 8 * q * Real.log (1 - c) + 16 * q ^ 2 / (1 - c)

/-- C102: the kernel of SSC is the mean of the kernel of external Compton over the directions of the target
photon (up to the factor 2 of the definitions; the lower limit of the support is that of `isotropic_kernel`) -/
theorem C102_mean {γ ε εs φ : ℝ} (hγ : 0 < γ) (he : 0 < ε) (hs : 0 < εs)
    (hq : εs < γ → 1 / (4 * γ ^ 2) ≤ jonesQ γ ε εs ∧ ftiny ≤ jonesQ γ ε εs) :
    isotropicKernel γ ε εs = 1 / 4 * ∫ mu in (-1)..1, comptonKernel γ εs ε 1 mu φ := by
  have hz : ∀ mu, mu ≤ 1 → (mu = 1 ∨ ¬ Allowed γ εs ε mu) → comptonKernel γ εs ε 1 mu φ = 0 := fun mu h1 h => by
    apply C39_zero hγ hs he <;> rw [C38_aligned]
    · exact h1
    · exact h
  rcases le_or_gt γ εs with hle | hlt
  · rw [C40_energy hγ he hle]
    have : ∫ mu in (-1)..1, comptonKernel γ εs ε 1 mu φ = 0 := by
      refine eq_on_pieces (f := fun mu => comptonKernel γ εs ε 1 mu φ) (g := fun _ => 0) (le_refl (-1)) (by norm_num)
        intervalIntegrable_const (fun s h h' => absurd h (not_lt.2 h')) (fun s h h' => ?_) (by simp)
      rcases eq_or_lt_of_le h' with h1 | h1
      · exact hz s h' (Or.inl h1)
      · exact hz s h' (Or.inr fun ha => absurd (allowed_lt hγ hs he h1 ha) (not_lt.2 hle))
    rw [this]; ring
  obtain ⟨h1, hr⟩ := hq hlt
  have hq0 := jonesQ_pos hγ he hs hlt
  rcases lt_or_ge 1 (jonesQ γ ε εs) with hbig | hq1
  · rw [C40_support hγ (Or.inr hbig)]
    have : ∫ mu in (-1)..1, comptonKernel γ εs ε 1 mu φ = 0 := by
      refine eq_on_pieces (f := fun mu => comptonKernel γ εs ε 1 mu φ) (g := fun _ => 0) (le_refl (-1)) (by norm_num)
        intervalIntegrable_const (fun s h h' => absurd h (not_lt.2 h')) (fun s h h' => ?_) (by simp)
      refine hz s h' (Or.inr fun ha => ?_)
      have := (allowed_iff_q hγ he hlt).1 ha
      linarith
    rw [this]; ring
  have hy : 0 < 1 - εs / γ := by rw [sub_pos, div_lt_one hγ]; exact hlt
  set q := jonesQ γ ε εs with hqd
  have h0 : 0 < γ - εs := by linarith
  -- the scattered energy in terms of q
  have hx : εs = 4 * γ * ε * q * (γ * (1 - εs / γ)) := by
    rw [hqd]; unfold jonesQ; field_simp
  have hyq : (1 - εs / γ) * (1 + 4 * γ * ε * q) = 1 := by
    rw [hqd]; unfold jonesQ; field_simp; ring
  have hd : ∀ c, c < 1 → HasDerivAt (primitiveMu (1 - εs / γ) q) (inside γ (targetEnergy γ ε c) εs) c := by
    intro c hc
    have hc' : 0 < 1 - c := by linarith
    have d0 : HasDerivAt (fun c : ℝ => 1 - c) (-1) c := by simpa using (hasDerivAt_id c).const_sub 1
    have d := (((hasDerivAt_id c).const_mul (1 - εs / γ + 1 / (1 - εs / γ))).add
      ((d0.log hc'.ne').const_mul (8 * q))).add ((d0.inv hc'.ne').const_mul (16 * q ^ 2))
    refine (d.congr_deriv ?_).congr_of_eventuallyEq ?_
    · unfold inside targetEnergy
      generalize 1 - εs / γ = y at hx hy
      rw [hx]
      field_simp
      ring
    · refine Filter.Eventually.of_forall fun t => ?_
      simp [primitiveMu, div_eq_mul_inv]
  have hm : (-1 : ℝ) ≤ 1 - 2 * q := by linarith
  have hi : IntervalIntegrable (fun c => inside γ (targetEnergy γ ε c) εs) volume (-1) (1 - 2 * q) := by
    apply ContinuousOn.intervalIntegrable
    intro c hc
    rw [Set.uIcc_of_le hm] at hc
    have hc' : 1 - c ≠ 0 := by
      have : 0 < 1 - c := by linarith [hc.2]
      exact this.ne'
    have hg := hγ.ne'
    have := he.ne'
    have := hy.ne'
    apply ContinuousAt.continuousWithinAt
    unfold inside targetEnergy
    fun_prop (disch := positivity)
  have hv : ∫ mu in (-1)..1, comptonKernel γ εs ε 1 mu φ
      = primitiveMu (1 - εs / γ) q (1 - 2 * q) - primitiveMu (1 - εs / γ) q (-1) := by
    refine eq_on_pieces hm (by linarith) hi (fun c _ h => ?_) (fun c h h' => ?_) ?_
    · have hc : c < 1 := by linarith
      have := comptonKernel_inside (φ := φ) (mu_s := 1) (mu := c) hγ hs he (by rw [C38_aligned]; exact hc)
        (by rw [C38_aligned]; exact (allowed_iff_q hγ he hlt).2 h)
      rw [this, C38_aligned]
    · refine hz c h' (Or.inr fun ha => ?_)
      have := (allowed_iff_q hγ he hlt).1 ha
      linarith
    · refine intervalIntegral.integral_eq_sub_of_hasDerivAt (fun c hc => hd c ?_) hi
      rw [Set.uIcc_of_le hm] at hc
      linarith [hc.2]
  rw [C40_inside hγ he h1 hq1 hr, hv, ← hqd]
  unfold primitiveMu
  have e1 : (1 : ℝ) - (1 - 2 * q) = 2 * q := by ring
  have e2 : (1 : ℝ) - -1 = 2 := by ring
  rw [e1, e2, Real.log_mul two_ne_zero hq0.ne']
  have e3 : 1 - εs / γ = 1 / (1 + 4 * γ * ε * q) := by
    rw [eq_div_iff (by positivity)]; exact hyq
  rw [e3]
  generalize Real.log q = L
  generalize Real.log 2 = L2
  have : 1 + 4 * γ * ε * q ≠ 0 := by positivity
  field_simp
  ring

/-! ### the limit of Thomson -/

/-- the kernel of SSC as function of `q` and `Γ = 4 γ ε` -/
noncomputable def jones (g q : ℝ) : ℝ :=
  2 * q * Real.log q + (1 + 2 * q) * (1 - q) + (g * q) ^ 2 * (1 - q) / (2 * (1 + g * q))

/-- energy of the scattered photon as function of `q` -/
noncomputable def scattered (γ g q : ℝ) : ℝ := γ * (g * q) / (1 + g * q)

theorem scattered_lt {γ g q : ℝ} (hγ : 0 < γ) (hg : 0 < g) (hq : 0 < q) : scattered γ g q < γ := by
  unfold scattered
  have : 0 < g * q := by positivity
  rw [div_lt_iff₀ (by positivity)]
  nlinarith

theorem scattered_pos {γ g q : ℝ} (hγ : 0 < γ) (hg : 0 < g) (hq : 0 < q) : 0 < scattered γ g q := by
  unfold scattered; positivity

theorem jonesQ_scattered {γ ε q : ℝ} (hγ : 0 < γ) (he : 0 < ε) (hq : 0 < q) :
    jonesQ γ ε (scattered γ (4 * γ * ε) q) = q := by
  unfold jonesQ scattered
  have h1 : 0 < 1 + 4 * γ * ε * q := by positivity
  have h2 : γ - γ * (4 * γ * ε * q) / (1 + 4 * γ * ε * q) = γ / (1 + 4 * γ * ε * q) := by
    field_simp; ring
  rw [h2]
  field_simp

theorem scattered_mono {γ g p q : ℝ} (hγ : 0 < γ) (hg : 0 < g) (hp : 0 < p) (hq : 0 < q) :
    scattered γ g p ≤ scattered γ g q ↔ p ≤ q := by
  have e : scattered γ g q - scattered γ g p = γ * g / ((1 + g * q) * (1 + g * p)) * (q - p) := by
    unfold scattered
    have : 0 < 1 + g * q := by positivity
    have : 0 < 1 + g * p := by positivity
    field_simp
    ring
  rw [← sub_nonneg, e, mul_nonneg_iff_of_pos_left (by positivity), sub_nonneg]

theorem scattered_jonesQ {γ ε s : ℝ} (hγ : 0 < γ) (he : 0 < ε) (h : s < γ) :
    scattered γ (4 * γ * ε) (jonesQ γ ε s) = s := by
  unfold jonesQ scattered
  have h1 : 0 < γ - s := by linarith
  have h2 : 1 + 4 * γ * ε * (s / (4 * γ * ε * (γ - s))) = γ / (γ - s) := by field_simp; ring
  rw [h2]
  field_simp

theorem hasDerivAt_scattered {γ g q : ℝ} (h : 1 + g * q ≠ 0) :
    HasDerivAt (scattered γ g) (γ * g / (1 + g * q) ^ 2) q := by
  have d1 : HasDerivAt (fun q : ℝ => g * q) g q := by simpa using (hasDerivAt_id q).const_mul g
  have d := (d1.const_mul γ).div (d1.const_add 1) h
  refine d.congr_deriv ?_
  field_simp
  ring

/-- the moments of the kernel of SSC as integrals over `q` -/
theorem moment_eq {γ ε : ℝ} (n : ℕ) (hγ : 1 ≤ γ) (hr : ftiny ≤ 1 / (4 * γ ^ 2)) (he : 0 < ε) :
    3 / (4 * γ ^ 2 * ε) * ∫ s in (0)..γ, (s / ε) ^ n * isotropicKernel γ ε s
      = 3 * (4 * γ ^ 2) ^ n * ∫ q in (1 / (4 * γ ^ 2))..1, q ^ n * jones (4 * γ * ε) q / (1 + 4 * γ * ε * q) ^ (n + 2) := by
  have h0 : 0 < γ := by linarith
  set q0 := 1 / (4 * γ ^ 2) with hq0
  have q0p : 0 < q0 := by positivity
  have q01 : q0 ≤ 1 := by
    rw [hq0, div_le_one (by positivity)]; nlinarith
  set g := 4 * γ * ε with hg
  have gp : 0 < g := by positivity
  set a := scattered γ g q0
  set b := scattered γ g 1
  have ap : 0 < a := scattered_pos h0 gp q0p
  have hab : a ≤ b := (scattered_mono h0 gp q0p one_pos).2 q01
  have hb : b < γ := scattered_lt h0 gp one_pos
  set F : ℝ → ℝ := fun s => (s / ε) ^ n * jones g (jonesQ γ ε s) with hF
  have hcont : ContinuousOn F (Set.Icc a b) := by
    intro s hs
    have s0 : 0 < s := ap.trans_le hs.1
    have s1 : s < γ := hs.2.trans_lt hb
    have hq := jonesQ_pos h0 he s0 s1
    have hc : ContinuousAt (jonesQ γ ε) s := by
      have : 4 * γ * ε * (γ - s) ≠ 0 := by
        have : 0 < γ - s := by linarith
        positivity
      unfold jonesQ
      fun_prop (disch := assumption)
    have hj : ContinuousAt (jones g) (jonesQ γ ε s) := by
      have h1 : 2 * (1 + g * jonesQ γ ε s) ≠ 0 := by positivity
      have h2 := hq.ne'
      unfold jones
      fun_prop (disch := assumption)
    have hc2 : ContinuousAt (fun s => jones g (jonesQ γ ε s)) s := ContinuousAt.comp (f := jonesQ γ ε) hj hc
    apply ContinuousAt.continuousWithinAt
    have hen := he.ne'
    have hc3 : ContinuousAt (fun s : ℝ => (s / ε) ^ n) s := by fun_prop
    exact hc3.mul hc2
  have hin : ∀ s, a ≤ s → s ≤ b → isotropicKernel γ ε s = jones g (jonesQ γ ε s) := by
    intro s ha hb'
    have s0 : 0 < s := ap.trans_le ha
    have s1 : s < γ := hb'.trans_lt hb
    have hq := jonesQ_pos h0 he s0 s1
    have e1 := scattered_jonesQ h0 he s1
    rw [← hg] at e1
    have l1 : q0 ≤ jonesQ γ ε s := by
      rw [← scattered_mono h0 gp q0p hq, e1]; exact ha
    have l2 : jonesQ γ ε s ≤ 1 := by
      rw [← scattered_mono h0 gp hq one_pos, e1]; exact hb'
    rw [C40_inside h0 he l1 l2 (hr.trans l1)]
    unfold jones
    rw [← hg]
  have hout : ∀ s, 0 < s → s < a ∨ b < s → isotropicKernel γ ε s = 0 := by
    intro s s0 h
    rcases le_or_gt γ s with h1 | h1
    · exact C40_energy h0 he h1
    · have hq := jonesQ_pos h0 he s0 h1
      have e1 := scattered_jonesQ h0 he h1
      rw [← hg] at e1
      apply C40_support h0
      rcases h with h | h
      · left
        rw [← hq0]
        rw [← not_le, ← scattered_mono h0 gp q0p hq, e1, not_le]; exact h
      · right
        rw [← not_le, ← scattered_mono h0 gp hq one_pos, e1, not_le]; exact h
  have hi : IntervalIntegrable F volume a b := by
    apply ContinuousOn.intervalIntegrable
    rwa [Set.uIcc_of_le hab]
  have hsum : ∫ s in (0)..γ, (s / ε) ^ n * isotropicKernel γ ε s = ∫ s in a..b, F s := by
    have t1 : ∫ s in a..γ, (s / ε) ^ n * isotropicKernel γ ε s = ∫ s in a..b, F s := by
      refine eq_on_pieces hab hb.le hi (fun s h h' => ?_) (fun s h _ => ?_) rfl
      · rw [hin s h.le h']
      · rw [hout s ((ap.trans_le hab).trans h) (Or.inr h), mul_zero]
    have a0 : ∀ᵐ s ∂volume, s ∈ Set.uIoc 0 a → (0 : ℝ) = (s / ε) ^ n * isotropicKernel γ ε s := by
      have : ∀ᵐ s ∂(volume : Measure ℝ), s ≠ a := by simp [ae_iff, measure_singleton]
      filter_upwards [this] with s hs hs'
      rw [Set.uIoc_of_le ap.le] at hs'
      rw [hout s hs'.1 (Or.inl (lt_of_le_of_ne hs'.2 hs)), mul_zero]
    have i0 : IntervalIntegrable (fun s => (s / ε) ^ n * isotropicKernel γ ε s) volume 0 a :=
      (intervalIntegrable_const (c := (0 : ℝ))).congr_ae (by
        rw [Filter.EventuallyEq, ae_restrict_iff' measurableSet_uIoc]; exact a0)
    have i1 : IntervalIntegrable (fun s => (s / ε) ^ n * isotropicKernel γ ε s) volume a γ := by
      refine IntervalIntegrable.trans (b := b) (hi.congr_ae ?_)
        ((intervalIntegrable_const (c := (0 : ℝ))).congr_ae ?_)
      · rw [Filter.EventuallyEq, ae_restrict_iff' measurableSet_uIoc]
        refine Filter.Eventually.of_forall fun s hs => ?_
        rw [Set.uIoc_of_le hab] at hs
        rw [hin s hs.1.le hs.2]
      · rw [Filter.EventuallyEq, ae_restrict_iff' measurableSet_uIoc]
        refine Filter.Eventually.of_forall fun s hs => ?_
        rw [Set.uIoc_of_le hb.le] at hs
        rw [hout s ((ap.trans_le hab).trans hs.1) (Or.inr hs.1), mul_zero]
    rw [← intervalIntegral.integral_add_adjacent_intervals i0 i1, ← intervalIntegral.integral_congr_ae a0, t1]
    simp
  have hmaps : scattered γ g '' Set.uIcc q0 1 ⊆ Set.Icc a b := by
    rintro _ ⟨q, hq, rfl⟩
    rw [Set.uIcc_of_le q01] at hq
    have qp := q0p.trans_le hq.1
    exact ⟨(scattered_mono h0 gp q0p qp).2 hq.1, (scattered_mono h0 gp qp one_pos).2 hq.2⟩
  have hch := intervalIntegral.integral_comp_mul_deriv' (a := q0) (b := 1) (f := scattered γ g)
    (f' := fun q => γ * g / (1 + g * q) ^ 2) (g := F)
    (fun q hq => by
      rw [Set.uIcc_of_le q01] at hq
      have qp := q0p.trans_le hq.1
      exact hasDerivAt_scattered (by positivity))
    (by
      intro q hq
      rw [Set.uIcc_of_le q01] at hq
      have qp := q0p.trans_le hq.1
      have : (1 + g * q) ^ 2 ≠ 0 := by positivity
      apply ContinuousAt.continuousWithinAt
      fun_prop (disch := assumption))
    (hcont.mono hmaps)
  rw [hsum, ← hch, ← intervalIntegral.integral_const_mul, ← intervalIntegral.integral_const_mul]
  refine intervalIntegral.integral_congr fun q hq => ?_
  rw [Set.uIcc_of_le q01] at hq
  have qp := q0p.trans_le hq.1
  simp only [hF, Function.comp]
  rw [jonesQ_scattered h0 he qp]
  generalize jones g q = J
  have e4 : scattered γ g q / ε = 4 * γ ^ 2 * q / (1 + g * q) := by
    unfold scattered; rw [hg]; field_simp
  rw [e4, div_pow, mul_pow, pow_add, hg]
  have : 1 + 4 * γ * ε * q ≠ 0 := by positivity
  field_simp

theorem moment_tendsto {γ : ℝ} (n : ℕ) (hγ : 1 ≤ γ) (hr : ftiny ≤ 1 / (4 * γ ^ 2)) :
    Filter.Tendsto (fun ε => 3 / (4 * γ ^ 2 * ε) * ∫ s in (0)..γ, (s / ε) ^ n * isotropicKernel γ ε s)
      (nhdsWithin 0 (Set.Ioi 0))
      (nhds (3 * (4 * γ ^ 2) ^ n * ∫ q in (1 / (4 * γ ^ 2))..1, q ^ n * jones 0 q)) := by
  have h0 : 0 < γ := by linarith
  set q0 := 1 / (4 * γ ^ 2) with hq0
  have q0p : 0 < q0 := by positivity
  have q01 : q0 ≤ 1 := by
    rw [hq0, div_le_one (by positivity)]; nlinarith
  have hpos : ∀ᶠ ε in nhdsWithin (0 : ℝ) (Set.Ioi 0), 0 < ε := eventually_mem_nhdsWithin
  have hsmall : ∀ᶠ ε in nhdsWithin (0 : ℝ) (Set.Ioi 0), ε < 1 / (4 * γ) :=
    nhdsWithin_le_nhds (Iio_mem_nhds (by positivity))
  have key : Filter.Tendsto (fun ε => ∫ q in q0..1, q ^ n * jones (4 * γ * ε) q / (1 + 4 * γ * ε * q) ^ (n + 2))
      (nhdsWithin 0 (Set.Ioi 0)) (nhds (∫ q in q0..1, q ^ n * jones 0 q)) := by
    refine intervalIntegral.tendsto_integral_filter_of_dominated_convergence (fun _ => 2) ?_ ?_
      intervalIntegrable_const ?_
    · refine Filter.Eventually.of_forall fun ε => Measurable.aestronglyMeasurable ?_
      unfold jones
      fun_prop
    · filter_upwards [hpos, hsmall] with ε he hs
      refine Filter.Eventually.of_forall fun q hq => ?_
      rw [Set.uIoc_of_le q01] at hq
      have qp := q0p.trans hq.1
      have q1 := hq.2
      have gp : 0 < 4 * γ * ε := by positivity
      have g1 : 4 * γ * ε ≤ 1 := by
        rw [lt_div_iff₀ (by positivity)] at hs; linarith
      generalize 4 * γ * ε = g at gp g1
      have hj := jones_nonneg qp q1
      have gq : g * q ≤ 1 := by nlinarith
      have gq0 : 0 < g * q := by positivity
      have t3 : 0 ≤ (g * q) ^ 2 * (1 - q) / (2 * (1 + g * q)) := by
        have : 0 ≤ 1 - q := by linarith
        positivity
      have t3' : (g * q) ^ 2 * (1 - q) / (2 * (1 + g * q)) ≤ 1 / 2 := by
        rw [div_le_iff₀ (by positivity)]
        have : (g * q) ^ 2 * (1 - q) ≤ 1 * 1 := by
          apply mul_le_mul (pow_le_one₀ gq0.le gq) (by linarith) (by linarith) (by norm_num)
        nlinarith
      have hl : 2 * q * Real.log q ≤ 0 :=
        mul_nonpos_of_nonneg_of_nonpos (by positivity) (Real.log_nonpos qp.le q1)
      have j0 : 0 ≤ jones g q := by unfold jones; linarith
      have j2 : jones g q ≤ 2 := by unfold jones; nlinarith [sq_nonneg (4 * q - 1)]
      rw [Real.norm_of_nonneg (by positivity), div_le_iff₀ (by positivity)]
      have p1 : (1 : ℝ) ≤ (1 + g * q) ^ (n + 2) := one_le_pow₀ (by linarith)
      have p2 : q ^ n ≤ 1 := pow_le_one₀ qp.le q1
      have : q ^ n * jones g q ≤ 1 * 2 := mul_le_mul p2 j2 j0 zero_le_one
      linarith
    · refine Filter.Eventually.of_forall fun q hq => ?_
      rw [Set.uIoc_of_le q01] at hq
      have : ContinuousAt (fun ε : ℝ => q ^ n * jones (4 * γ * ε) q / (1 + 4 * γ * ε * q) ^ (n + 2)) 0 := by
        have h1 : 2 * (1 + 4 * γ * (0 : ℝ) * q) ≠ 0 := by simp
        have h2 : (1 + 4 * γ * (0 : ℝ) * q) ^ (n + 2) ≠ 0 := by simp
        unfold jones
        fun_prop (disch := assumption)
      have ht := this.tendsto
      simp only [mul_zero, zero_mul, add_zero, one_pow, div_one] at ht
      exact ht.mono_left nhdsWithin_le_nhds
  refine (key.const_mul (3 * (4 * γ ^ 2) ^ n)).congr' ?_
  filter_upwards [hpos] with ε he
  rw [moment_eq n hγ hr he]

/-- C102: in the limit of Thomson the kernel of SSC gives one photon per collision, up to the cut of the support at
`q = 1 / (4 γ²)` -/
theorem C102_thomson_count {γ : ℝ} (hγ : 1 ≤ γ) (hr : ftiny ≤ 1 / (4 * γ ^ 2)) :
    ∃ cut, 0 ≤ cut ∧ cut ≤ 3 / (4 * γ ^ 2)
      ∧ Filter.Tendsto (fun ε => 3 / (4 * γ ^ 2 * ε) * ∫ s in (0)..γ, isotropicKernel γ ε s)
        (nhdsWithin 0 (Set.Ioi 0)) (nhds (1 - cut)) := by
  have h0 : 0 < γ := by linarith
  have ht := moment_tendsto 0 hγ hr
  set q0 := 1 / (4 * γ ^ 2) with hq0
  have q0p : 0 < q0 := by positivity
  have q01 : q0 ≤ 1 := by
    rw [hq0, div_le_one (by positivity)]; nlinarith
  have hv : ∫ q in q0..1, q ^ 0 * jones 0 q
      = (1 ^ 2 * Real.log 1 + 1 - 2 / 3 * 1 ^ 3) - (q0 ^ 2 * Real.log q0 + q0 - 2 / 3 * q0 ^ 3) := by
    refine intervalIntegral.integral_eq_sub_of_hasDerivAt
      (f := fun q : ℝ => q ^ 2 * Real.log q + q - 2 / 3 * q ^ 3) (fun q hq => ?_) ?_
    · rw [Set.uIcc_of_le q01] at hq
      have qp := q0p.trans_le hq.1
      have d := (((hasDerivAt_pow 2 q).mul (Real.hasDerivAt_log qp.ne')).add (hasDerivAt_id q)).sub
        ((hasDerivAt_pow 3 q).const_mul (2 / 3))
      refine d.congr_deriv ?_
      unfold jones
      field_simp
      ring
    · apply ContinuousOn.intervalIntegrable
      intro q hq
      rw [Set.uIcc_of_le q01] at hq
      have qp := (q0p.trans_le hq.1).ne'
      apply ContinuousAt.continuousWithinAt
      have : 2 * (1 + 0 * q) ≠ 0 := by simp
      unfold jones
      fun_prop (disch := assumption)
  have hl : Real.log q0 ≤ 0 := Real.log_nonpos q0p.le q01
  have hl' : 1 - 1 / q0 ≤ Real.log q0 := by
    have := Real.one_sub_inv_le_log_of_pos q0p
    rwa [← one_div] at this
  refine ⟨3 * (q0 ^ 2 * Real.log q0 + q0 - 2 / 3 * q0 ^ 3), ?_, ?_, ?_⟩
  · have : q0 ^ 2 * (1 - 1 / q0) ≤ q0 ^ 2 * Real.log q0 := mul_le_mul_of_nonneg_left hl' (by positivity)
    have e : q0 ^ 2 * (1 - 1 / q0) = q0 ^ 2 - q0 := by field_simp
    have : q0 ^ 3 ≤ q0 ^ 2 := pow_le_pow_of_le_one q0p.le q01 (by norm_num)
    have : 0 ≤ q0 ^ 3 := by positivity
    nlinarith
  · have : q0 ^ 2 * Real.log q0 ≤ 0 := mul_nonpos_of_nonneg_of_nonpos (by positivity) hl
    have e : 3 / (4 * γ ^ 2) = 3 * q0 := by rw [hq0]; ring
    have : 0 ≤ q0 ^ 3 := by positivity
    rw [e]; linarith
  · rw [hv] at ht
    simp only [pow_zero, one_mul, Real.log_one] at ht
    convert ht using 2
    norm_num
    ring

/-- C102: in the limit of Thomson the scattered photons carry 4/3 γ² times the energy of the target photons, up to
the cut of the support at `q = 1 / (4 γ²)` -/
theorem C102_thomson_energy {γ : ℝ} (hγ : 1 ≤ γ) (hr : ftiny ≤ 1 / (4 * γ ^ 2)) :
    ∃ cut, 0 ≤ cut ∧ cut ≤ 11 / 2 / (4 * γ ^ 2) ^ 2
      ∧ Filter.Tendsto (fun ε => 3 / (4 * γ ^ 2 * ε) * ∫ s in (0)..γ, s / ε * isotropicKernel γ ε s)
        (nhdsWithin 0 (Set.Ioi 0)) (nhds (4 / 3 * γ ^ 2 * (1 - cut))) := by
  have h0 : 0 < γ := by linarith
  have ht := moment_tendsto 1 hγ hr
  set q0 := 1 / (4 * γ ^ 2) with hq0
  have q0p : 0 < q0 := by positivity
  have q01 : q0 ≤ 1 := by
    rw [hq0, div_le_one (by positivity)]; nlinarith
  have hv : ∫ q in q0..1, q ^ 1 * jones 0 q
      = (2 / 3 * (1 ^ 3 * Real.log 1) + 1 / 9 * 1 ^ 3 + 1 / 2 * 1 ^ 2 - 1 / 2 * 1 ^ 4)
        - (2 / 3 * (q0 ^ 3 * Real.log q0) + 1 / 9 * q0 ^ 3 + 1 / 2 * q0 ^ 2 - 1 / 2 * q0 ^ 4) := by
    refine intervalIntegral.integral_eq_sub_of_hasDerivAt
      (f := fun q : ℝ => 2 / 3 * (q ^ 3 * Real.log q) + 1 / 9 * q ^ 3 + 1 / 2 * q ^ 2 - 1 / 2 * q ^ 4) (fun q hq => ?_) ?_
    · rw [Set.uIcc_of_le q01] at hq
      have qp := q0p.trans_le hq.1
      have d := (((((hasDerivAt_pow 3 q).mul (Real.hasDerivAt_log qp.ne')).const_mul (2 / 3)).add
        ((hasDerivAt_pow 3 q).const_mul (1 / 9))).add ((hasDerivAt_pow 2 q).const_mul (1 / 2))).sub
        ((hasDerivAt_pow 4 q).const_mul (1 / 2))
      refine d.congr_deriv ?_
      unfold jones
      field_simp
      ring
    · apply ContinuousOn.intervalIntegrable
      intro q hq
      rw [Set.uIcc_of_le q01] at hq
      have qp := (q0p.trans_le hq.1).ne'
      apply ContinuousAt.continuousWithinAt
      have : 2 * (1 + 0 * q) ≠ 0 := by simp
      unfold jones
      fun_prop (disch := assumption)
  have hl : Real.log q0 ≤ 0 := Real.log_nonpos q0p.le q01
  have hl' : 1 - 1 / q0 ≤ Real.log q0 := by
    have := Real.one_sub_inv_le_log_of_pos q0p
    rwa [← one_div] at this
  have h32 : q0 ^ 3 ≤ q0 ^ 2 := pow_le_pow_of_le_one q0p.le q01 (by norm_num)
  have h43 : q0 ^ 4 ≤ q0 ^ 3 := pow_le_pow_of_le_one q0p.le q01 (by norm_num)
  have h4 : 0 ≤ q0 ^ 4 := by positivity
  refine ⟨9 * (2 / 3 * (q0 ^ 3 * Real.log q0) + 1 / 9 * q0 ^ 3 + 1 / 2 * q0 ^ 2 - 1 / 2 * q0 ^ 4), ?_, ?_, ?_⟩
  · have hj := jones_nonneg q0p q01
    have e : 9 * (2 / 3 * (q0 ^ 3 * Real.log q0) + 1 / 9 * q0 ^ 3 + 1 / 2 * q0 ^ 2 - 1 / 2 * q0 ^ 4)
        = q0 ^ 2 * (3 * (2 * q0 * Real.log q0 + (1 + 2 * q0) * (1 - q0))
          + (5 / 6 + 3 / 2 * (q0 - 2 / 3) ^ 2)) := by ring
    rw [e]
    positivity
  · have : q0 ^ 3 * Real.log q0 ≤ 0 := mul_nonpos_of_nonneg_of_nonpos (by positivity) hl
    have e : 11 / 2 / (4 * γ ^ 2) ^ 2 = 11 / 2 * q0 ^ 2 := by rw [hq0]; ring
    rw [e]; linarith
  · rw [hv] at ht
    simp only [pow_one, one_pow, Real.log_one] at ht
    convert ht using 2
    ring

/-! ### the cross-section -/

/-- ratio of the energies after and before scattering of a photon at rest, by the cosine of the scattering angle -/
noncomputable def shift (a c : ℝ) : ℝ := 1 / (1 + a * (1 - c))

/-- antiderivative of the differential cross-section -/
noncomputable def primitiveKN (a c : ℝ) : ℝ :=
  1 / (2 * a * (1 + a * (1 - c)) ^ 2) - Real.log (1 + a * (1 - c)) / a
    + 1 / a ^ 3 * (-(1 + a * (1 - c)) + (2 + 2 * a) * Real.log (1 + a * (1 - c)) + (1 + 2 * a) / (1 + a * (1 - c)))

/-- C102: the total cross-section used here is the integral of the differential cross-section of Klein and Nishina -/
theorem C102_cross_section {a : ℝ} (ha : 0 < a) :
    kleinNishina a = 3 / 8 * ∫ c in (-1)..1, shift a c ^ 2 * (shift a c + 1 / shift a c - (1 - c ^ 2)) := by
  have hw : ∀ c ∈ Set.uIcc (-1 : ℝ) 1, 0 < 1 + a * (1 - c) := by
    intro c hc
    rw [Set.uIcc_of_le (by norm_num)] at hc
    have : 0 ≤ 1 - c := by linarith [hc.2]
    positivity
  have hd : ∀ c ∈ Set.uIcc (-1 : ℝ) 1, HasDerivAt (primitiveKN a)
      (shift a c ^ 2 * (shift a c + 1 / shift a c - (1 - c ^ 2))) c := by
    intro c hc
    have h := hw c hc
    have d0 : HasDerivAt (fun c : ℝ => 1 + a * (1 - c)) (-a) c := by
      have := (((hasDerivAt_id c).const_sub 1).const_mul a).const_add 1
      simpa using this
    have dp : HasDerivAt (fun c : ℝ => (1 + a * (1 - c)) ^ 2) (2 * (1 + a * (1 - c)) * -a) c := by
      simpa using d0.fun_pow 2
    have d := ((dp.const_mul (2 * a)).inv (by positivity)).sub ((d0.log h.ne').div_const a)
    have d2 := ((d0.neg.add ((d0.log h.ne').const_mul (2 + 2 * a))).add ((d0.inv h.ne').const_mul (1 + 2 * a))).const_mul
      (1 / a ^ 3)
    refine ((d.add d2).congr_deriv ?_).congr_of_eventuallyEq ?_
    · unfold shift
      have hc' : c = (1 + a - (1 + a * (1 - c))) / a := by field_simp; ring
      generalize 1 + a * (1 - c) = w at h hc'
      subst hc'
      field_simp
      ring
    · refine Filter.Eventually.of_forall fun t => ?_
      simp [primitiveKN, div_eq_mul_inv]
  have hi : IntervalIntegrable (fun c => shift a c ^ 2 * (shift a c + 1 / shift a c - (1 - c ^ 2))) volume (-1) 1 := by
    apply ContinuousOn.intervalIntegrable
    intro c hc
    have h := (hw c hc).ne'
    apply ContinuousAt.continuousWithinAt
    have h2 : shift a c ≠ 0 := by unfold shift; exact one_div_ne_zero h
    have h3 : ContinuousAt (shift a) c := by unfold shift; fun_prop (disch := assumption)
    fun_prop (disch := assumption)
  rw [intervalIntegral.integral_eq_sub_of_hasDerivAt hd hi]
  unfold primitiveKN kleinNishina
  have e1 : 1 + a * (1 - 1) = 1 := by ring
  have e2 : 1 + a * (1 - -1) = 1 + 2 * a := by ring
  rw [e1, e2, Real.log_one]
  generalize Real.log (1 + 2 * a) = L
  have : 1 + 2 * a ≠ 0 := by positivity
  field_simp
  ring

/-- C102: never more collisions than with the Thomson cross-section, which is approached at low energies -/
theorem C102_thomson_bounds {a : ℝ} (ha : 0 < a) : 1 / (1 + 2 * a) ^ 3 ≤ kleinNishina a ∧ kleinNishina a ≤ 1 := by
  rw [C102_cross_section ha]
  have hP : ∀ c ∈ Set.Icc (-1 : ℝ) 1, 1 / (1 + 2 * a) ≤ shift a c ∧ shift a c ≤ 1 := by
    intro c hc
    have h0 : 0 ≤ 1 - c := by linarith [hc.2]
    have h1 : 1 - c ≤ 2 := by linarith [hc.1]
    unfold shift
    constructor
    · apply one_div_le_one_div_of_le (by positivity)
      nlinarith
    · rw [div_le_one (by positivity)]
      nlinarith
  have hi : IntervalIntegrable (fun c => shift a c ^ 2 * (shift a c + 1 / shift a c - (1 - c ^ 2))) volume (-1) 1 := by
    apply ContinuousOn.intervalIntegrable
    intro c hc
    rw [Set.uIcc_of_le (by norm_num)] at hc
    have h2 : shift a c ≠ 0 := (lt_of_lt_of_le (by positivity) (hP c hc).1).ne'
    have h : 1 + a * (1 - c) ≠ 0 := by
      have : 0 ≤ 1 - c := by linarith [hc.2]
      positivity
    have h3 : ContinuousAt (shift a) c := by unfold shift; fun_prop (disch := assumption)
    apply ContinuousAt.continuousWithinAt
    fun_prop (disch := assumption)
  have hb : ∀ c ∈ Set.Icc (-1 : ℝ) 1, 1 / (1 + 2 * a) ^ 3 * (1 + c ^ 2)
      ≤ shift a c ^ 2 * (shift a c + 1 / shift a c - (1 - c ^ 2))
      ∧ shift a c ^ 2 * (shift a c + 1 / shift a c - (1 - c ^ 2)) ≤ 1 + c ^ 2 := by
    intro c hc
    obtain ⟨l, u⟩ := hP c hc
    have p0 : 0 < 1 / (1 + 2 * a) := by positivity
    have s0 : 0 ≤ 1 - c ^ 2 := by nlinarith [hc.1, hc.2]
    have e : 1 / (1 + 2 * a) ^ 3 = (1 / (1 + 2 * a)) ^ 3 := by rw [div_pow, one_pow]
    rw [e]
    generalize 1 / (1 + 2 * a) = p at l p0
    generalize shift a c = P at l u
    have hP0 : 0 < P := p0.trans_le l
    have e2 : P ^ 2 * (P + 1 / P - (1 - c ^ 2)) = P ^ 3 + P - P ^ 2 * (1 - c ^ 2) := by field_simp
    rw [e2]
    have s1 : 1 - c ^ 2 ≤ 1 := by nlinarith [sq_nonneg c]
    constructor
    · have h3 : p ^ 3 ≤ P ^ 3 := pow_le_pow_left₀ p0.le l 3
      have h4 : p ^ 3 * (1 + c ^ 2) ≤ P ^ 3 * (1 + c ^ 2) := mul_le_mul_of_nonneg_right h3 (by positivity)
      have e3 : P ^ 3 + P - P ^ 2 * (1 - c ^ 2) - P ^ 3 * (1 + c ^ 2)
          = P * (1 - P) * (1 + P - P * (1 - c ^ 2)) := by ring
      have : 0 ≤ P * (1 - P) * (1 + P - P * (1 - c ^ 2)) := by
        have : 0 ≤ 1 + P - P * (1 - c ^ 2) := by nlinarith
        have : 0 ≤ 1 - P := by linarith
        positivity
      linarith
    · have e3 : 1 + c ^ 2 - (P ^ 3 + P - P ^ 2 * (1 - c ^ 2))
          = (1 - P) * (P ^ 2 + P + 2 - (1 + P) * (1 - c ^ 2)) := by ring
      have : 0 ≤ (1 - P) * (P ^ 2 + P + 2 - (1 + P) * (1 - c ^ 2)) := by
        have : 0 ≤ P ^ 2 + P + 2 - (1 + P) * (1 - c ^ 2) := by nlinarith [sq_nonneg P]
        have : 0 ≤ 1 - P := by linarith
        positivity
      linarith
  have hsum : ∫ c in (-1 : ℝ)..1, (1 + c ^ 2) = 8 / 3 := by
    rw [intervalIntegral.integral_add (by simp) (by simp)]
    simp
    norm_num
  have hic : IntervalIntegrable (fun c : ℝ => 1 + c ^ 2) volume (-1) 1 :=
    (by fun_prop : Continuous fun c : ℝ => 1 + c ^ 2).intervalIntegrable _ _
  constructor
  · have := intervalIntegral.integral_mono_on (by norm_num) (hic.const_mul (1 / (1 + 2 * a) ^ 3)) hi
      fun c hc => (hb c hc).1
    rw [intervalIntegral.integral_const_mul, hsum] at this
    linarith
  · have := intervalIntegral.integral_mono_on (by norm_num) hi hic fun c hc => (hb c hc).2
    rw [hsum] at this
    linarith

/-- the hypotheses hold for a Lorentz factor of one thousand; the cut is below one in a million -/
example : (1 : ℝ) ≤ 1000 ∧ ftiny ≤ 1 / (4 * (1000 : ℝ) ^ 2) ∧ 3 / (4 * (1000 : ℝ) ^ 2) < 1 / 10 ^ 6 := by
  refine ⟨by norm_num, ?_, by norm_num⟩
  unfold ftiny
  rw [div_le_div_iff₀ (by positivity) (by norm_num), one_mul, one_mul]
  calc (4 * (1000 : ℝ) ^ 2) ≤ 2 ^ 22 := by norm_num
    _ ≤ 2 ^ 1022 := pow_le_pow_right₀ (by norm_num) (by norm_num)

/-- a head-on collision of a target photon of 1/2000 with an electron of 1000: the energy in the frame of the electron
is one, the cross-section about 0.43 of that of Thomson -/
example : cosPsi 1 (-1) 0 < 1 ∧ targetEnergy 1000 (1 / 2000) (cosPsi 1 (-1) 0) = 1
    ∧ 42 / 100 < kleinNishina 1 ∧ kleinNishina 1 < 45 / 100 := by
  rw [C38_aligned]
  have h1 : Real.log 3 < 11 / 10 := by
    rw [Real.log_lt_iff_lt_exp (by norm_num)]
    have := Real.sum_le_exp_of_nonneg (show (0 : ℝ) ≤ 11 / 10 by norm_num) 6
    norm_num [Finset.sum_range_succ, Nat.factorial] at this
    linarith
  have h2 : 109 / 100 < Real.log 3 := by
    have : (109 / 100 : ℝ) = Real.log (Real.exp (109 / 100)) := (Real.log_exp _).symm
    rw [this]
    apply Real.log_lt_log (Real.exp_pos _)
    have h := Real.exp_one_lt_d9
    have h3 : Real.exp (109 / 100) = Real.exp 1 * Real.exp (9 / 100) := by rw [← Real.exp_add]; norm_num
    have h4 : Real.exp (9 / 100) ≤ 1 / (1 - 9 / 100) := by
      have := Real.add_one_le_exp (-(9 / 100) : ℝ)
      rw [Real.exp_neg] at this
      rw [le_div_iff₀ (by norm_num)]
      have hp := Real.exp_pos (9 / 100)
      have e : Real.exp (9 / 100) * (Real.exp (9 / 100))⁻¹ = 1 := mul_inv_cancel₀ hp.ne'
      nlinarith
    rw [h3]
    have hp := Real.exp_pos (1 : ℝ)
    nlinarith
  refine ⟨by norm_num, by norm_num [targetEnergy], ?_, ?_⟩ <;>
  · unfold kleinNishina
    norm_num
    linarith

end Verif.Kernels
