import Mathlib.Analysis.SpecialFunctions.Integrals.Basic
import Verif.Lemmas.TrapzLimit
import Verif.Model.RadiativeProcess
import Verif.Props.Synchrotron

/-
C76 the quadratures converge: as `gamma_e_size` (or the number of frequencies) grows, the integrals over the Lorentz
factor and over the frequency that the code computes with the trapezoidal rule tend to the integrals of the continuous
functions they stand for.
-/

namespace Verif

open MathUtils Spectra Filter Topology Set

/-! ### the densities are continuous between the limits -/

namespace Spectra.Dist

/-- what makes the density continuous between the limits: scale parameters are positive, and the interpolating function
is continuous on the tabulated range -/
def Regular : Dist → Prop
  | powerLaw .. => True
  | broken _ _ _ gb _ _ => 0 < gb
  | logParabola _ _ _ g0 _ _ => 0 < g0
  | ecpl .. => True
  | ecbpl _ _ _ _ gb _ _ => 0 < gb
  | interp f _ _ a b => ContinuousOn f (Icc (log10 a) (log10 b))
  | empty .. => True

theorem continuousOn_log10 : ContinuousOn log10 (Ioi 0) := by
  unfold log10
  exact (Real.continuousOn_log.mono fun x hx => ne_of_gt hx).div_const _

theorem log10_mono {a b : ℝ} (ha : 0 < a) (hab : a ≤ b) : log10 a ≤ log10 b := by
  rcases hab.eq_or_lt with rfl | h
  · exact le_rfl
  · exact (log10_lt ha h).le

/-- a broken power law as a product of powers of continuous functions -/
theorem broken_product {g gb : ℝ} (hb : 0 < gb) (p1 p2 : ℝ) :
    (g / gb) ^ (-(if g ≤ gb then p1 else p2)) = (min g gb / gb) ^ (-p1) * (max g gb / gb) ^ (-p2) := by
  have h1 : gb / gb = 1 := div_self hb.ne'
  split_ifs with h
  · rw [min_eq_left h, max_eq_right h, h1, Real.one_rpow, mul_one]
  · rw [min_eq_right (not_le.1 h).le, max_eq_left (not_le.1 h).le, h1, Real.one_rpow, one_mul]

theorem continuousOn_broken {gb : ℝ} (hb : 0 < gb) (p1 p2 : ℝ) :
    ContinuousOn (fun g : ℝ => (g / gb) ^ (-(if g ≤ gb then p1 else p2))) (Ioi 0) := by
  refine ContinuousOn.congr (f := fun g => (min g gb / gb) ^ (-p1) * (max g gb / gb) ^ (-p2)) ?_ ?_
  · refine ContinuousOn.mul ?_ ?_
    · refine ContinuousOn.rpow_const (by fun_prop) fun g hg => Or.inl ?_
      have : 0 < min g gb := lt_min hg hb
      positivity
    · refine ContinuousOn.rpow_const (by fun_prop) fun g hg => Or.inl ?_
      have : 0 < max g gb := lt_max_of_lt_right hb
      positivity
  · intro g _
    exact broken_product hb p1 p2

theorem continuousOn_call {d : Dist} (hd : d.Regular) (ha : 0 < d.gmin) : ContinuousOn d.call (Icc d.gmin d.gmax) := by
  have hsub : Icc d.gmin d.gmax ⊆ Ioi 0 := fun x hx => lt_of_lt_of_le ha hx.1
  have hpow : ∀ q : ℝ, ContinuousOn (fun g : ℝ => g ^ q) (Icc d.gmin d.gmax) := fun q =>
    ContinuousOn.rpow_const continuousOn_id fun g hg => Or.inl (ne_of_gt (hsub hg))
  cases d with
  | powerLaw k p a b =>
    refine ContinuousOn.congr (f := fun g => k * g ^ (-p)) (continuousOn_const.mul (hpow _)) ?_
    intro g hg
    exact if_pos hg
  | broken k p1 p2 gb a b =>
    refine ContinuousOn.congr (f := fun g => k * (g / gb) ^ (-(if g ≤ gb then p1 else p2)))
      (continuousOn_const.mul ((continuousOn_broken hd p1 p2).mono hsub)) ?_
    intro g hg
    exact if_pos hg
  | logParabola k p q g0 a b =>
    have hd' : 0 < g0 := hd
    refine ContinuousOn.congr (f := fun g => k * (g / g0) ^ (-p - q * log10 (g / g0))) ?_ ?_
    · have hr : ContinuousOn (fun g : ℝ => g / g0) (Icc (Dist.logParabola k p q g0 a b).gmin
          (Dist.logParabola k p q g0 a b).gmax) := continuousOn_id.div_const _
      have hr0 : MapsTo (fun g : ℝ => g / g0) (Icc (Dist.logParabola k p q g0 a b).gmin
          (Dist.logParabola k p q g0 a b).gmax) (Ioi 0) := fun g hg => div_pos (hsub hg) hd'
      refine continuousOn_const.mul (hr.rpow ?_ fun g hg => Or.inl (ne_of_gt (hr0 hg)))
      exact continuousOn_const.sub (continuousOn_const.mul (continuousOn_log10.comp hr hr0))
    · intro g hg
      exact if_pos hg
  | ecpl k p gc a b =>
    refine ContinuousOn.congr (f := fun g => k * g ^ (-p) * Real.exp (-g / gc))
      ((continuousOn_const.mul (hpow _)).mul (by fun_prop)) ?_
    intro g hg
    exact if_pos hg
  | ecbpl k p1 p2 gc gb a b =>
    refine ContinuousOn.congr (f := fun g => k * (g / gb) ^ (-(if g ≤ gb then p1 else p2)) * Real.exp (-g / gc))
      ((continuousOn_const.mul ((continuousOn_broken hd p1 p2).mono hsub)).mul (by fun_prop)) ?_
    intro g hg
    exact if_pos hg
  | interp f df norm a b =>
    have hf : ContinuousOn f (Icc (log10 a) (log10 b)) := hd
    refine ContinuousOn.congr (f := fun g => norm * (10 : ℝ) ^ f (log10 g)) ?_ ?_
    · refine continuousOn_const.mul (ContinuousOn.rpow continuousOn_const ?_ fun _ _ => Or.inl (by norm_num))
      refine hf.comp (continuousOn_log10.mono hsub) ?_
      intro g hg
      exact ⟨log10_mono ha hg.1, log10_mono (hsub hg) hg.2⟩
    · intro g hg
      show interpAt f g norm a b = _
      unfold interpAt
      rw [if_pos (show InBounds a b g from hg)]
  | empty a b => exact continuousOn_const

/-- ... and the derivative of the interpolating function is continuous as well -/
def RegularSSA : Dist → Prop
  | interp f df norm a b => (interp f df norm a b).Regular ∧ ContinuousOn df (Icc (log10 a) (log10 b))
  | d => d.Regular

/-- between the limits the self-absorption integrand is continuous, or jumps at the break only -/
theorem ssa_jump {d : Dist} (hd : d.RegularSSA) (ha : 0 < d.gmin) :
    ∃ (f0 f1 : ℝ → ℝ) (c : ℝ), 0 < c ∧ ContinuousOn f0 (Icc d.gmin d.gmax) ∧ ContinuousOn f1 (Ioi 0)
      ∧ ∀ g ∈ Icc d.gmin d.gmax, d.ssa g = f0 g + if g ≤ c then f1 g else 0 := by
  have hsub : Icc d.gmin d.gmax ⊆ Ioi 0 := fun x hx => lt_of_lt_of_le ha hx.1
  have hne : ∀ g ∈ Icc d.gmin d.gmax, g ≠ 0 := fun g hg => ne_of_gt (hsub hg)
  have hinv : ContinuousOn (fun g : ℝ => g⁻¹) (Icc d.gmin d.gmax) := continuousOn_inv₀.mono hne
  have hinv' : ContinuousOn (fun g : ℝ => g⁻¹) (Ioi 0) := continuousOn_inv₀.mono fun g hg => ne_of_gt hg
  have hpow : ∀ q : ℝ, ContinuousOn (fun g : ℝ => g ^ q) (Icc d.gmin d.gmax) := fun q =>
    ContinuousOn.rpow_const continuousOn_id fun g hg => Or.inl (hne g hg)
  have smooth : ∀ F : ℝ → ℝ, ContinuousOn F (Icc d.gmin d.gmax) → (∀ g ∈ Icc d.gmin d.gmax, d.ssa g = F g) →
      ∃ (f0 f1 : ℝ → ℝ) (c : ℝ), 0 < c ∧ ContinuousOn f0 (Icc d.gmin d.gmax) ∧ ContinuousOn f1 (Ioi 0)
      ∧ ∀ g ∈ Icc d.gmin d.gmax, d.ssa g = f0 g + if g ≤ c then f1 g else 0 := by
    intro F hF h
    refine ⟨F, fun _ => 0, 1, one_pos, hF, continuousOn_const, fun g hg => ?_⟩
    rw [h g hg]
    simp
  cases d with
  | powerLaw k p a b =>
    refine smooth (fun g => k * (-(p + 2) * g ^ (-p - 1)))
      (continuousOn_const.mul (continuousOn_const.mul (hpow _))) ?_
    intro g hg
    show powerLawSSA g k p a b = _
    unfold powerLawSSA
    rw [if_pos (show InBounds a b g from hg)]
  | broken k p1 p2 gb a b =>
    have hb : 0 < gb := hd
    refine ⟨fun g => k * -(p2 + 2) * g⁻¹ * (g / gb) ^ (-(if g ≤ gb then p1 else p2)),
      fun g => k * (p2 - p1) * g⁻¹ * (g / gb) ^ (-(if g ≤ gb then p1 else p2)), gb, hb,
      (continuousOn_const.mul hinv).mul ((continuousOn_broken hb p1 p2).mono hsub),
      (continuousOn_const.mul hinv').mul (continuousOn_broken hb p1 p2), ?_⟩
    intro g hg
    show brokenSSA g k p1 p2 gb a b = _
    unfold brokenSSA
    dsimp only
    rw [if_pos (show InBounds a b g from hg), div_eq_mul_inv]
    split_ifs <;> ring
  | logParabola k p q g0 a b =>
    have hd' : 0 < g0 := hd
    have hr : ContinuousOn (fun g : ℝ => g / g0) (Icc (Dist.logParabola k p q g0 a b).gmin
        (Dist.logParabola k p q g0 a b).gmax) := continuousOn_id.div_const _
    have hr0 : MapsTo (fun g : ℝ => g / g0) (Icc (Dist.logParabola k p q g0 a b).gmin
        (Dist.logParabola k p q g0 a b).gmax) (Ioi 0) := fun g hg => div_pos (hsub hg) hd'
    refine smooth (fun g => -(p + 2 * q * log10 (g / g0) + 2) / g * (Dist.logParabola k p q g0 a b).call g)
      (ContinuousOn.mul (ContinuousOn.div ?_ continuousOn_id hne) (continuousOn_call hd ha)) fun g _ => rfl
    exact ((continuousOn_const.add (continuousOn_const.mul (continuousOn_log10.comp hr hr0))).add
      continuousOn_const).neg
  | ecpl k p gc a b =>
    refine smooth (fun g => (-(p + 2) / g + (-1 / gc)) * (Dist.ecpl k p gc a b).call g)
      (ContinuousOn.mul ((ContinuousOn.div continuousOn_const continuousOn_id hne).add continuousOn_const)
        (continuousOn_call hd ha)) fun g _ => rfl
  | ecbpl k p1 p2 gc gb a b =>
    have hb : 0 < gb := hd
    refine ⟨fun g => (-(p2 + 2) * g⁻¹ + (-1 / gc))
        * (k * (g / gb) ^ (-(if g ≤ gb then p1 else p2)) * Real.exp (-g / gc)),
      fun g => (p2 - p1) * g⁻¹ * (k * (g / gb) ^ (-(if g ≤ gb then p1 else p2)) * Real.exp (-g / gc)), gb, hb,
      ((continuousOn_const.mul hinv).add continuousOn_const).mul
        ((continuousOn_const.mul ((continuousOn_broken hb p1 p2).mono hsub)).mul (by fun_prop)),
      (continuousOn_const.mul hinv').mul
        ((continuousOn_const.mul (continuousOn_broken hb p1 p2)).mul (by fun_prop)), ?_⟩
    intro g hg
    show ecbplSSA g g k p1 p2 gc gb a b = _
    unfold ecbplSSA ecbplAt
    dsimp only
    rw [if_pos (show InBounds a b g from hg), if_pos (show InBounds a b g from hg), div_eq_mul_inv _ g]
    split_ifs <;> ring
  | interp f df norm a b =>
    refine smooth (fun g => (Dist.interp f df norm a b).call g * df (log10 g) / g
        - 2 * (Dist.interp f df norm a b).call g / g) ?_ fun g _ => rfl
    have hn := continuousOn_call hd.1 ha
    refine ContinuousOn.sub (ContinuousOn.div (hn.mul (hd.2.comp (continuousOn_log10.mono hsub) ?_)) continuousOn_id hne)
      (ContinuousOn.div (continuousOn_const.mul hn) continuousOn_id hne)
    intro g hg
    exact ⟨log10_mono ha hg.1, log10_mono (hsub hg) hg.2⟩
  | empty a b => exact smooth (fun _ => 0) continuousOn_const fun g _ => rfl

theorem RegularSSA.regular {d : Dist} (hd : d.RegularSSA) : d.Regular := by
  cases d <;> first | exact hd | exact hd.1

/-- the self-absorption integrand on the distribution's own grid -/
theorem ssaIntegrand_own {d : Dist} (ha : 0 < d.gmin) (hab : d.gmin < d.gmax) {n : ℕ} (hn : 2 ≤ n) :
    d.ssaIntegrand (logspace (log10 d.gmin) (log10 d.gmax) n)
      = (logspace (log10 d.gmin) (log10 d.gmax) n, (logspace (log10 d.gmin) (log10 d.gmax) n).map d.ssa) := by
  obtain ⟨mid, hm⟩ := logspace_ends_n ha (ha.trans hab) hn
  have : d.afterSSA (logspace (log10 d.gmin) (log10 d.gmax) n) = logspace (log10 d.gmin) (log10 d.gmax) n := by
    unfold Dist.afterSSA
    split
    · rfl
    · rfl
    · unfold Dist.afterCall
      split
      · rfl
      · rw [hm, correctBoundary_id]
  unfold Dist.ssaIntegrand
  rw [this, List.zipWith_self]
  rfl

/-- evaluating a distribution on its own grid leaves the grid as it is -/
theorem evaluate_own {d : Dist} (ha : 0 < d.gmin) (hab : d.gmin < d.gmax) {n : ℕ} (hn : 2 ≤ n) :
    d.evaluate (logspace (log10 d.gmin) (log10 d.gmax) n)
      = (logspace (log10 d.gmin) (log10 d.gmax) n, (logspace (log10 d.gmin) (log10 d.gmax) n).map d.call) := by
  obtain ⟨mid, hm⟩ := logspace_ends_n ha (ha.trans hab) hn
  have : d.afterCall (logspace (log10 d.gmin) (log10 d.gmax) n) = logspace (log10 d.gmin) (log10 d.gmax) n := by
    unfold Dist.afterCall
    split
    · rfl
    · rw [hm, correctBoundary_id]
  unfold Dist.evaluate
  rw [this]

end Spectra.Dist

theorem trapz_tendsto_logspace {f : ℝ → ℝ} {a b : ℝ} (ha : 0 < a) (hab : a < b) (hf : ContinuousOn f (Icc a b)) :
    Tendsto (fun n => over trapz (logspace (log10 a) (log10 b) n) f) atTop (𝓝 (∫ t in a..b, f t)) :=
  trapz_tendsto hab.le hf (fineGrids_logspace ha hab)

/-- a finite sum of samples that depend continuously on a parameter depends continuously on it -/
theorem continuousOn_over {s : Set ℝ} {f : ℝ → ℝ → ℝ} (grid : List ℝ) (h : ∀ x ∈ grid, ContinuousOn (fun p => f p x) s) :
    ContinuousOn (fun p => over trapz grid (f p)) s := by
  unfold over
  induction grid with
  | nil => exact continuousOn_const
  | cons x l ih =>
    cases l with
    | nil => exact continuousOn_const
    | cons y l =>
      have ih := ih fun z hz => h z (List.mem_cons_of_mem _ hz)
      simp only [List.map_cons, trapz] at ih ⊢
      exact ((continuousOn_const.mul ((h x (by simp)).add (h y (by simp)))).div_const _).add ih

/-! ### energetics of the blob -/

namespace Region.Blob

variable {b : Blob} {k : Consts}

/-- C76: the numerical electron density tends to the integral of the distribution -/
theorem C76_n_e_tot (hd : b.n_e.Regular) (ha : 0 < b.n_e.gmin) (hab : b.n_e.gmin < b.n_e.gmax) :
    Tendsto (fun N : ℕ => { b with gamma_e_size := N }.n_e_tot) atTop
      (𝓝 (∫ g in b.n_e.gmin..b.n_e.gmax, b.n_e.call g)) := by
  refine (trapz_tendsto_logspace ha hab (Dist.continuousOn_call hd ha)).congr' ?_
  filter_upwards [eventually_ge_atTop 2] with N hN
  unfold n_e_tot gamma_e
  dsimp only
  rw [Dist.evaluate_own ha hab hN]
  rfl

/-- C76: the numerical energy density of the electrons tends to m_e c^2 times the first moment -/
theorem C76_u_e (hd : b.n_e.Regular) (ha : 0 < b.n_e.gmin) (hab : b.n_e.gmin < b.n_e.gmax) :
    Tendsto (fun N : ℕ => { b with gamma_e_size := N }.u_e k) atTop
      (𝓝 (k.mec2 * ∫ g in b.n_e.gmin..b.n_e.gmax, g * b.n_e.call g)) := by
  refine Tendsto.const_mul _ ?_
  refine (trapz_tendsto_logspace ha hab (continuousOn_id.mul (Dist.continuousOn_call hd ha))).congr' ?_
  filter_upwards [eventually_ge_atTop 2] with N hN
  unfold gamma_e
  dsimp only
  rw [Dist.evaluate_own ha hab hN]
  conv_rhs => arg 1; arg 2; rw [← List.map_id (logspace _ _ N)]
  rw [zipWith_mul_map]
  rfl

/-- C76: the numerical energy density of synchrotron photons tends to sigma_T U_B R_b times the second moment -/
theorem C76_u_ph_synch (hd : b.n_e.Regular) (ha : 0 < b.n_e.gmin) (hab : b.n_e.gmin < b.n_e.gmax) :
    Tendsto (fun N : ℕ => { b with gamma_e_size := N }.u_ph_synch k) atTop
      (𝓝 (k.sigma_T * (b.B ^ 2 / (8 * Real.pi)) * b.R_b * ∫ g in b.n_e.gmin..b.n_e.gmax, g ^ 2 * b.n_e.call g)) := by
  refine Tendsto.const_mul _ ?_
  refine (trapz_tendsto_logspace ha hab ((continuousOn_id.pow 2).mul (Dist.continuousOn_call hd ha))).congr' ?_
  filter_upwards [eventually_ge_atTop 2] with N hN
  unfold gamma_e
  dsimp only
  rw [Dist.evaluate_own ha hab hN, zipWith_mul_map]
  rfl

/-- C76: totals in the blob -/
theorem C76_totals (hd : b.n_e.Regular) (ha : 0 < b.n_e.gmin) (hab : b.n_e.gmin < b.n_e.gmax) :
    Tendsto (fun N : ℕ => { b with gamma_e_size := N }.N_e_tot) atTop
      (𝓝 (4 / 3 * Real.pi * b.R_b ^ 3 * ∫ g in b.n_e.gmin..b.n_e.gmax, b.n_e.call g))
    ∧ Tendsto (fun N : ℕ => { b with gamma_e_size := N }.W_e k) atTop
      (𝓝 (4 / 3 * Real.pi * b.R_b ^ 3 * (k.mec2 * ∫ g in b.n_e.gmin..b.n_e.gmax, g * b.n_e.call g))) :=
  ⟨(C76_n_e_tot hd ha hab).const_mul _, (C76_u_e hd ha hab).const_mul _⟩

/-- C76: density and energy density of the protons -/
theorem C76_protons {n : Dist} (hp : b.n_p = some n) (hd : n.Regular) (ha : 0 < n.gmin) (hab : n.gmin < n.gmax) :
    ∃ x y : ℕ → ℝ, (∀ N : ℕ, { b with gamma_p_size := N }.n_p_tot = .ok (x N)
        ∧ { b with gamma_p_size := N }.u_p k = .ok (y N))
      ∧ Tendsto x atTop (𝓝 (∫ g in n.gmin..n.gmax, n.call g))
      ∧ Tendsto y atTop (𝓝 (k.mpc2 * ∫ g in n.gmin..n.gmax, g * n.call g)) := by
  refine ⟨fun N => trapz (n.evaluate (logspace (log10 n.gmin) (log10 n.gmax) N)).2
      (logspace (log10 n.gmin) (log10 n.gmax) N),
    fun N => k.mpc2 * trapz (List.zipWith (· * ·) (logspace (log10 n.gmin) (log10 n.gmax) N)
      (n.evaluate (logspace (log10 n.gmin) (log10 n.gmax) N)).2) (logspace (log10 n.gmin) (log10 n.gmax) N),
    ?_, ?_, ?_⟩
  · intro N
    unfold n_p_tot u_p protons gamma_p
    dsimp only
    rw [hp]
    exact ⟨rfl, rfl⟩
  · refine (trapz_tendsto_logspace ha hab (Dist.continuousOn_call hd ha)).congr' ?_
    filter_upwards [eventually_ge_atTop 2] with N hN
    rw [Dist.evaluate_own ha hab hN]
    rfl
  · refine Tendsto.const_mul _ ?_
    refine (trapz_tendsto_logspace ha hab (continuousOn_id.mul (Dist.continuousOn_call hd ha))).congr' ?_
    filter_upwards [eventually_ge_atTop 2] with N hN
    rw [Dist.evaluate_own ha hab hN]
    conv_rhs => arg 1; arg 2; rw [← List.map_id (logspace _ _ N)]
    rw [zipWith_mul_map]
    rfl

/-- C76, closed form: for a power law of index other than 1 the numerical density tends to
`K (γmax^(1-p) - γmin^(1-p)) / (1-p)` -/
theorem C76_power_law {K p a c : ℝ} (hp : p ≠ 1) (ha : 0 < a) (hac : a < c) (hb : b.n_e = .powerLaw K p a c) :
    Tendsto (fun N : ℕ => { b with gamma_e_size := N }.n_e_tot) atTop
      (𝓝 (K * ((c ^ (1 - p) - a ^ (1 - p)) / (1 - p)))) := by
  have h := C76_n_e_tot (b := b) (by rw [hb]; trivial) (by rw [hb]; exact ha) (by rw [hb]; exact hac)
  have e : ∫ g in b.n_e.gmin..b.n_e.gmax, b.n_e.call g = K * ((c ^ (1 - p) - a ^ (1 - p)) / (1 - p)) := by
    rw [hb]
    show ∫ g in a..c, powerLawAt g K p a c = _
    have e1 : ∫ g in a..c, powerLawAt g K p a c = ∫ g in a..c, K * g ^ (-p) := by
      refine intervalIntegral.integral_congr ?_
      intro g hg
      rw [uIcc_of_le hac.le] at hg
      exact if_pos hg
    rw [e1, intervalIntegral.integral_const_mul, integral_rpow (Or.inr ⟨by simpa using hp, by
      rw [uIcc_of_le hac.le]
      exact fun h => absurd h.1 (not_le.2 ha)⟩)]
    rw [show -p + 1 = 1 - p by ring]
  rw [e] at h
  exact h

end Region.Blob

/-! ### synchrotron radiation -/

namespace Synchrotron

open Spectra

theorem continuousOn_R : ContinuousOn R (Ici 0) := by
  unfold R
  dsimp only
  have c1 : ∀ q : ℝ, 0 ≤ q → Continuous fun x : ℝ => x ^ q := fun q hq => Real.continuous_rpow_const hq
  have a1 := c1 (1 / 3) (by norm_num)
  have a2 := c1 (2 / 3) (by norm_num)
  have a4 := c1 (4 / 3) (by norm_num)
  refine ContinuousOn.mul (ContinuousOn.div (ContinuousOn.mul (ContinuousOn.div ?_ ?_ ?_) ?_) ?_ ?_) (by fun_prop)
  · exact (continuous_const.mul a1).continuousOn
  · exact (Real.continuous_sqrt.comp (continuous_const.add (continuous_const.mul a2))).continuousOn
  · intro x hx
    have : 0 ≤ x ^ (2 / 3 : ℝ) := Real.rpow_nonneg hx _
    exact (Real.sqrt_pos.2 (by positivity)).ne'
  · exact ((continuous_const.add (continuous_const.mul a2)).add (continuous_const.mul a4)).continuousOn
  · exact ((continuous_const.add (continuous_const.mul a2)).add (continuous_const.mul a4)).continuousOn
  · intro x hx
    have : 0 ≤ x ^ (2 / 3 : ℝ) := Real.rpow_nonneg hx _
    have : 0 ≤ x ^ (4 / 3 : ℝ) := Real.rpow_nonneg hx _
    positivity

/-- the power radiated by one particle is a continuous function of its energy -/
theorem continuousOn_power {k : Consts} (hk : k.Pos) {B ε m : ℝ} (hB : 0 < B) (hε : 0 ≤ ε) :
    ContinuousOn (fun g => power k B ε g m) (Ioi 0) := by
  unfold power
  dsimp only
  refine continuousOn_const.mul (continuousOn_R.comp ?_ ?_)
  · unfold calcX
    refine ContinuousOn.div continuousOn_const (by fun_prop) ?_
    intro g hg
    have := hk.e; have := hk.h
    have : 0 < g := hg
    positivity
  · intro g _
    exact calcX_nonneg hk hB hε g

/-- ... and of the photon energy -/
theorem continuousOn_power_eps {k : Consts} (hk : k.Pos) {B g m : ℝ} (hB : 0 < B) :
    ContinuousOn (fun ε => power k B ε g m) (Ici 0) := by
  unfold power
  dsimp only
  refine continuousOn_const.mul (continuousOn_R.comp ?_ ?_)
  · unfold calcX
    fun_prop
  · intro ε hε
    exact calcX_nonneg hk hB hε g

variable {k : Consts} {nu z d_L δ B R_b : ℝ} {d : Dist}

/-- C76: the optically thin synchrotron SED, with the trapezoidal rule, tends to
`δ⁴ ε V_b / (4π d_L²) ∫ n(γ) P(ε, γ) dγ` as the grid of Lorentz factors is refined -/
theorem C76_synchrotron (hk : k.Pos) (hB : 0 < B) (hε : 0 ≤ nuToEps k nu z δ) (hd : d.Regular) (ha : 0 < d.gmin)
    (hab : d.gmin < d.gmax) :
    Tendsto (fun N : ℕ => sedFlux k trapz false nu z d_L δ B R_b d (logspace (log10 d.gmin) (log10 d.gmax) N)) atTop
      (𝓝 (δ ^ 4 / (4 * Real.pi * d_L ^ 2) * nuToEps k nu z δ * (4 / 3 * Real.pi * R_b ^ 3)
        * ∫ g in d.gmin..d.gmax, d.call g * power k B (nuToEps k nu z δ) g k.m_e)) := by
  have hsub : Icc d.gmin d.gmax ⊆ Ioi 0 := fun x hx => lt_of_lt_of_le ha hx.1
  have hc : ContinuousOn (fun g => d.call g * power k B (nuToEps k nu z δ) g k.m_e) (Icc d.gmin d.gmax) :=
    (Dist.continuousOn_call hd ha).mul ((continuousOn_power hk hB hε).mono hsub)
  rw [mul_assoc]
  refine Tendsto.congr' ?_ (((trapz_tendsto_logspace ha hab hc).const_mul _).const_mul _)
  filter_upwards [eventually_ge_atTop 2] with N hN
  show _ = sedThin _ _ _ _ _ _ _ _ _ _
  rw [sedThin_eq, show d.afterCall _ = _ from congrArg Prod.fst (Dist.evaluate_own ha hab hN),
    ← over_scale homogeneous_trapz]
  congr 1
  exact over_congr fun x _ => by unfold volume; ring

/-- C76: the same with the integrator `trapz_loglog`, as long as the samples are normal doubles -/
theorem C76_synchrotron_loglog (hk : k.Pos) (hB : 0 < B) (hε : 0 ≤ nuToEps k nu z δ) (hd : d.Regular)
    (ha : InRange d.gmin) (hb : InRange d.gmax) (hab : d.gmin < d.gmax)
    (hr : ∀ g ∈ Icc d.gmin d.gmax, InRange (4 / 3 * Real.pi * R_b ^ 3 * d.call g * power k B (nuToEps k nu z δ) g k.m_e)) :
    Tendsto (fun N : ℕ => sedFlux k trapzLoglog false nu z d_L δ B R_b d (logspace (log10 d.gmin) (log10 d.gmax) N))
      atTop (𝓝 (δ ^ 4 / (4 * Real.pi * d_L ^ 2) * nuToEps k nu z δ * (4 / 3 * Real.pi * R_b ^ 3)
        * ∫ g in d.gmin..d.gmax, d.call g * power k B (nuToEps k nu z δ) g k.m_e)) := by
  have hsub : Icc d.gmin d.gmax ⊆ Ioi 0 := fun x hx => lt_of_lt_of_le ha.pos hx.1
  have hc : ContinuousOn (fun g => 4 / 3 * Real.pi * R_b ^ 3 * d.call g * power k B (nuToEps k nu z δ) g k.m_e)
      (Icc d.gmin d.gmax) :=
    (continuousOn_const.mul (Dist.continuousOn_call hd ha.pos)).mul ((continuousOn_power hk hB hε).mono hsub)
  have h := (loglog_tendsto ha hb hab.le hc hr (fineGrids_logspace ha.pos hab)).const_mul
    (δ ^ 4 / (4 * Real.pi * d_L ^ 2) * nuToEps k nu z δ)
  have e : ∫ g in d.gmin..d.gmax, 4 / 3 * Real.pi * R_b ^ 3 * d.call g * power k B (nuToEps k nu z δ) g k.m_e
      = 4 / 3 * Real.pi * R_b ^ 3 * ∫ g in d.gmin..d.gmax, d.call g * power k B (nuToEps k nu z δ) g k.m_e := by
    rw [← intervalIntegral.integral_const_mul]
    simp only [mul_assoc]
  rw [e, ← mul_assoc] at h
  refine h.congr' ?_
  filter_upwards [eventually_ge_atTop 2] with N hN
  show _ = sedThin _ _ _ _ _ _ _ _ _ _
  rw [sedThin_eq, show d.afterCall _ = _ from congrArg Prod.fst (Dist.evaluate_own ha.pos hab hN)]
  rfl

/-- C76: the opacity to self-absorption tends to its integral, in spite of the jump of the integrand at the break of
a broken power law -/
theorem C76_opacity (hk : k.Pos) (hB : 0 < B) (hε : 0 ≤ nuToEps k nu z δ) (hd : d.RegularSSA) (ha : 0 < d.gmin)
    (hab : d.gmin < d.gmax) :
    Tendsto (fun N : ℕ => tauSSA k trapz nu z δ B R_b d (logspace (log10 d.gmin) (log10 d.gmax) N)) atTop
      (𝓝 (2 * (-1 / (8 * Real.pi * k.m_e * nuToEps k nu z δ ^ 2) * (k.lambda_c_e / k.c) ^ 3
        * ∫ g in d.gmin..d.gmax, d.ssa g * power k B (nuToEps k nu z δ) g k.m_e) * R_b)) := by
  obtain ⟨f0, f1, c, hc, h0, h1, he⟩ := Dist.ssa_jump hd ha
  have hsub : Icc d.gmin d.gmax ⊆ Ioi 0 := fun x hx => lt_of_lt_of_le ha hx.1
  have hP := continuousOn_power hk (m := k.m_e) hB hε
  have h := trapz_tendsto_jump (f := fun g => d.ssa g * power k B (nuToEps k nu z δ) g k.m_e)
    (f0 := fun g => f0 g * power k B (nuToEps k nu z δ) g k.m_e)
    (f1 := fun g => f1 g * power k B (nuToEps k nu z δ) g k.m_e) ha hab.le hc (h0.mul (hP.mono hsub)) (h1.mul hP)
    (fun g hg => by rw [he g hg]; split_ifs <;> ring) (fineGrids_logspace ha hab)
  refine Tendsto.congr' ?_ (((h.const_mul _).const_mul 2).mul_const R_b)
  filter_upwards [eventually_ge_atTop 2] with N hN
  unfold tauSSA
  rw [Dist.ssaIntegrand_own ha hab hN]
  dsimp only
  rw [zipWith_mul_map]
  rfl

theorem continuousAt_attenuation {t : ℝ} (ht : t ≠ 1 / 1000) : ContinuousAt tauToAttenuation t := by
  rcases lt_or_gt_of_ne ht with h | h
  · refine ContinuousAt.congr (f := fun _ => 1) continuousAt_const ?_
    filter_upwards [gt_mem_nhds h] with s hs
    unfold tauToAttenuation
    exact (if_pos hs).symm
  · have h0 : t ≠ 0 := by
      rintro rfl; norm_num at h
    refine ContinuousAt.congr
      (f := fun t => 3 * (1 / 2 + Real.exp (-t) / t - (1 - Real.exp (-t)) / t ^ 2) / t) ?_ ?_
    · refine ContinuousAt.div (continuousAt_const.mul (((continuousAt_const).add ?_).sub ?_)) continuousAt_id h0
      · exact ContinuousAt.div (by fun_prop) continuousAt_id h0
      · exact ContinuousAt.div (by fun_prop) (by fun_prop) (pow_ne_zero 2 h0)
    · filter_upwards [lt_mem_nhds h] with s hs
      unfold tauToAttenuation
      exact (if_neg (not_lt.2 hs.le)).symm

/-- C76: the self-absorbed synchrotron SED converges, unless the opacity tends exactly to the value 0.001 at which the
attenuation jumps -/
theorem C76_synchrotron_ssa (hk : k.Pos) (hB : 0 < B) (hε : 0 ≤ nuToEps k nu z δ) (hd : d.RegularSSA) (ha : 0 < d.gmin)
    (hab : d.gmin < d.gmax) {t : ℝ}
    (ht : t = 2 * (-1 / (8 * Real.pi * k.m_e * nuToEps k nu z δ ^ 2) * (k.lambda_c_e / k.c) ^ 3
        * ∫ g in d.gmin..d.gmax, d.ssa g * power k B (nuToEps k nu z δ) g k.m_e) * R_b)
    (hne : t ≠ 1 / 1000) :
    Tendsto (fun N : ℕ => sedFlux k trapz true nu z d_L δ B R_b d (logspace (log10 d.gmin) (log10 d.gmax) N)) atTop
      (𝓝 (δ ^ 4 / (4 * Real.pi * d_L ^ 2) * nuToEps k nu z δ * (4 / 3 * Real.pi * R_b ^ 3)
        * (∫ g in d.gmin..d.gmax, d.call g * power k B (nuToEps k nu z δ) g k.m_e) * tauToAttenuation t)) := by
  have h1 := C76_synchrotron (d_L := d_L) (R_b := R_b) hk hB hε hd.regular ha hab
  have h2 := C76_opacity (R_b := R_b) hk hB hε hd ha hab
  rw [← ht] at h2
  refine Tendsto.congr' ?_ (h1.mul ((continuousAt_attenuation hne).tendsto.comp h2))
  filter_upwards [eventually_ge_atTop 2] with N hN
  unfold sedFlux
  rw [show d.afterCall _ = _ from congrArg Prod.fst (Dist.evaluate_own ha hab hN)]
  rfl

/-- C76: the proton synchrotron SED -/
theorem C76_proton (hk : k.Pos) (hB : 0 < B) (hε : 0 ≤ nuToEpsP k nu z δ) (hd : d.Regular) (ha : 0 < d.gmin)
    (hab : d.gmin < d.gmax) :
    Tendsto (fun N : ℕ => sedFluxProton k trapz nu z d_L δ B R_b d (logspace (log10 d.gmin) (log10 d.gmax) N)) atTop
      (𝓝 (δ ^ 4 / (4 * Real.pi * d_L ^ 2) * nuToEpsP k nu z δ * (4 / 3 * Real.pi * R_b ^ 3)
        * ∫ g in d.gmin..d.gmax, d.call g * power k B (nuToEpsP k nu z δ) g k.m_p)) := by
  have hsub : Icc d.gmin d.gmax ⊆ Ioi 0 := fun x hx => lt_of_lt_of_le ha hx.1
  have hc : ContinuousOn (fun g => d.call g * power k B (nuToEpsP k nu z δ) g k.m_p) (Icc d.gmin d.gmax) :=
    (Dist.continuousOn_call hd ha).mul ((continuousOn_power hk hB hε).mono hsub)
  rw [mul_assoc]
  refine Tendsto.congr' ?_ (((trapz_tendsto_logspace ha hab hc).const_mul _).const_mul _)
  filter_upwards [eventually_ge_atTop 2] with N hN
  unfold sedFluxProton
  rw [Dist.evaluate_own ha hab hN]
  dsimp only
  rw [List.map_map, zipWith_mul_map, ← over_scale homogeneous_trapz]
  congr 1
  exact over_congr fun x _ => by simp only [Function.comp_apply]; unfold volume; ring

end Synchrotron

/-! ### integrated fluxes -/

namespace RadiativeProcess

/-- C76: `energy_flux_integral` tends to the integral of `F_nu = sed / nu` -/
theorem C76_energy_flux {sed : ℝ → ℝ} {a b : ℝ} (ha : 0 < a) (hab : a < b) (hs : ContinuousOn sed (Icc a b)) :
    Tendsto (fun n : ℕ => energyFluxIntegral sed a b n) atTop (𝓝 (∫ nu in a..b, sed nu / nu)) :=
  trapz_tendsto_logspace ha hab (hs.div continuousOn_id fun _ hx => ne_of_gt (lt_of_lt_of_le ha hx.1))

/-- C76: `flux_integral` tends to the integral of `sed / E^2` over the energies from `h nu_min` to `h nu_max` -/
theorem C76_flux {k : Consts} (hk : k.Pos) {sed : ℝ → ℝ} {a b : ℝ} (ha : 0 < a) (hab : a < b)
    (hs : ContinuousOn sed (Icc a b)) :
    Tendsto (fun n : ℕ => fluxIntegral k sed a b n) atTop
      (𝓝 (∫ E in (k.h * a)..(k.h * b), sed (E / k.h) / E ^ 2)) := by
  have hh := hk.h
  have hsub : ∫ E in (k.h * a)..(k.h * b), sed (E / k.h) / E ^ 2
      = k.h * ∫ nu in a..b, sed nu / (k.h * nu) ^ 2 := by
    have := intervalIntegral.mul_integral_comp_mul_left (a := a) (b := b) (f := fun E => sed (E / k.h) / E ^ 2) (c := k.h)
    rw [← this]
    congr 1
    refine intervalIntegral.integral_congr fun nu _ => ?_
    rw [mul_div_cancel_left₀ _ hh.ne']
  rw [hsub]
  have hc : ContinuousOn (fun nu => sed nu / (k.h * nu) ^ 2) (Icc a b) := by
    refine hs.div (by fun_prop) fun x hx => ?_
    have : 0 < x := lt_of_lt_of_le ha hx.1
    positivity
  refine ((trapz_tendsto_logspace ha hab hc).const_mul _).congr fun n => ?_
  unfold fluxIntegral nuLogspace over
  dsimp only
  generalize logspace (log10 a) (log10 b) n = l
  induction l with
  | nil => simp [trapz]
  | cons x l ih =>
    cases l with
    | nil => simp [trapz]
    | cons y l =>
      simp only [List.map_cons, trapz] at ih ⊢
      rw [← ih]
      unfold diffEnergyFlux
      ring

open Synchrotron Region in
/-- C76: the energy flux of a `Synchrotron` object without self-absorption, in any band -/
theorem C76_synchrotron_energy_flux {k : Consts} (hk : k.Pos) {b : Blob} (hB : 0 < b.B) (hz : 0 ≤ b.z)
    (hδ : 0 < b.delta_D) {nu_min nu_max : ℝ} (h0 : 0 < nu_min) (hn : nu_min < nu_max) :
    Tendsto (fun n : ℕ => energyFluxIntegral
        (fun nu => sedFlux k trapz false nu b.z b.d_L b.delta_D b.B b.R_b b.n_e b.gamma_e) nu_min nu_max n) atTop
      (𝓝 (∫ nu in nu_min..nu_max, sedFlux k trapz false nu b.z b.d_L b.delta_D b.B b.R_b b.n_e b.gamma_e / nu)) := by
  refine C76_energy_flux h0 hn ?_
  have he : ContinuousOn (fun nu => nuToEps k nu b.z b.delta_D) (Icc nu_min nu_max) := by
    unfold nuToEps
    fun_prop
  have he0 : MapsTo (fun nu => nuToEps k nu b.z b.delta_D) (Icc nu_min nu_max) (Ici 0) := fun nu hnu =>
    (nuToEps_pos hk (lt_of_lt_of_le h0 hnu.1) hz hδ).le
  refine ContinuousOn.congr (f := fun nu => b.delta_D ^ 4 / (4 * Real.pi * b.d_L ^ 2) * nuToEps k nu b.z b.delta_D
      * over trapz (b.n_e.afterCall b.gamma_e) fun g => volume b.R_b * b.n_e.call g
        * power k b.B (nuToEps k nu b.z b.delta_D) g k.m_e) ?_ ?_
  · refine (continuousOn_const.mul he).mul (continuousOn_over _ fun g _ => continuousOn_const.mul ?_)
    exact (continuousOn_power_eps hk hB).comp he he0
  · intro nu _
    show sedThin _ _ _ _ _ _ _ _ _ _ = _
    rw [sedThin_eq]

end RadiativeProcess

/-! ### concrete cases -/

open Region Synchrotron in
/-- the density of the power law `γ^-2` between 10 and 1000 tends to `1/10 - 1/1000` -/
example : Tendsto (fun N : ℕ => { demoBlob with gamma_e_size := N }.n_e_tot) atTop (𝓝 (1 / 10 - 1 / 1000)) := by
  have h := Blob.C76_power_law (b := demoBlob) (K := 1) (p := 2) (a := 10) (c := 1000) (by norm_num) (by norm_num)
    (by norm_num) rfl
  have e : (1 : ℝ) * ((1000 ^ (1 - 2 : ℝ) - 10 ^ (1 - 2 : ℝ)) / (1 - 2)) = 1 / 10 - 1 / 1000 := by
    norm_num [show (1 - 2 : ℝ) = -1 by norm_num, Real.rpow_neg_one]
  rw [e] at h
  exact h

/-- a broken power law satisfies the hypotheses of the opacity theorem -/
example : (Dist.broken 1 2 3 100 10 1000).RegularSSA ∧ 0 < (Dist.broken 1 2 3 100 10 1000).gmin
    ∧ (Dist.broken 1 2 3 100 10 1000).gmin < (Dist.broken 1 2 3 100 10 1000).gmax :=
  ⟨by norm_num [Dist.RegularSSA, Dist.Regular], by norm_num [Dist.gmin], by norm_num [Dist.gmin, Dist.gmax]⟩

/-- the interpolation of a straight line in logarithms -/
example : (Dist.interp (fun x => -2 * x) (fun _ => -2) 1 10 1000).RegularSSA :=
  ⟨by show ContinuousOn _ _; fun_prop, by fun_prop⟩

/-- `trapz_loglog` on `1/x` between 1 and 2: the samples are normal doubles -/
example : Tendsto (fun n : ℕ => over trapzLoglog (logspace (log10 1) (log10 2) n) fun x => 1 / x) atTop
    (𝓝 (∫ t in (1 : ℝ)..2, 1 / t)) := by
  have h2 : (2 : ℝ) ≤ fmax := by
    unfold fmax
    have : (2 : ℝ) ^ 1024 = 2 ^ 971 * 2 ^ 53 := by rw [← pow_add]
    rw [this]
    have h : (1 : ℝ) < 2 ^ 971 := one_lt_pow₀ (by norm_num) (by norm_num)
    have h2 : (4 : ℝ) ≤ 2 ^ 53 := by norm_num
    generalize (2 : ℝ) ^ 971 = p at *
    generalize (2 : ℝ) ^ 53 = q at *
    nlinarith
  have h3 : ftiny ≤ 1 / 2 := by
    unfold ftiny
    have : (2 : ℝ) ≤ 2 ^ 1022 := le_self_pow₀ (by norm_num) (by norm_num)
    exact one_div_le_one_div_of_le (by norm_num) this
  refine loglog_tendsto inRange_one ⟨ftiny_lt_one.le.trans (by norm_num), h2⟩ (by norm_num) ?_ ?_
    (fineGrids_logspace (by norm_num) (by norm_num))
  · exact continuousOn_const.div continuousOn_id fun x hx => ne_of_gt (lt_of_lt_of_le one_pos hx.1)
  · intro x hx
    have hx0 : 0 < x := lt_of_lt_of_le one_pos hx.1
    refine ⟨h3.trans (one_div_le_one_div_of_le hx0 hx.2), ?_⟩
    rw [div_le_iff₀ hx0]
    nlinarith [hx.1, one_lt_fmax]

end Verif
