import Mathlib.Analysis.SpecialFunctions.Integrals.Basic
import Verif.Props.Disk

/- C88: the power a `SSDisk` radiates according to its temperatures, against its luminosity. -/

noncomputable section

namespace Verif.Targets.SSDisk

open MathUtils Absorption Spectra Filter Topology

/-- power radiated by both faces of the rings between `a` and `b`: each emits `σ T⁴` per unit area -/
def thermalPower (k : Consts) (d : SSDisk) (a b : ℝ) : ℝ :=
  ∫ R in a..b, 2 * (2 * Real.pi * R) * (k.sigma_sb * T k R d.M_BH (d.m_dot k) d.R_in ^ 4)

theorem T_pow {k : Consts} (hk : k.Pos) {d : SSDisk} (hL : 0 < d.L_disk) (hM : 0 < d.M_BH) (he : 0 < d.eta)
    (h0 : 0 < d.R_in) {R : ℝ} (h : d.R_in ≤ R) :
    T k R d.M_BH (d.m_dot k) d.R_in ^ 4
      = 3 * k.G * d.M_BH * d.m_dot k * (1 - √(d.R_in / R)) / (8 * Real.pi * R ^ 3 * k.sigma_sb) := by
  have hR : 0 < R := lt_of_lt_of_le h0 h
  have hc := hk.c; have hG := hk.G; have hb := hk.sigma_sb; have hp := Real.pi_pos
  have h1 : √(d.R_in / R) ≤ 1 := Real.sqrt_le_one.2 (by rwa [div_le_one hR])
  have h2 : 0 ≤ 1 - √(d.R_in / R) := by linarith
  have hm : 0 < d.m_dot k := by unfold m_dot; positivity
  unfold T
  dsimp only
  rw [← Real.rpow_natCast, ← Real.rpow_mul (by positivity)]
  norm_num

/-- an antiderivative of `(1 - √(a/R)) / R²` -/
theorem hasDerivAt_profile {a R : ℝ} (ha : 0 < a) (hR : 0 < R) :
    HasDerivAt (fun R => -1 / R + 2 / 3 * √a * R ^ (-3 / 2 : ℝ)) ((1 - √(a / R)) / R ^ 2) R := by
  have h1 : HasDerivAt (fun R : ℝ => -1 / R) (1 / R ^ 2) R := by
    have := (hasDerivAt_inv hR.ne').neg
    have e : (fun R : ℝ => -1 / R) = fun R => -R⁻¹ := by funext x; rw [neg_div, one_div]
    rw [e]
    exact this.congr_deriv (by rw [neg_neg, one_div])
  have h2 : HasDerivAt (fun R : ℝ => R ^ (-3 / 2 : ℝ)) (-3 / 2 * R ^ (-3 / 2 - 1 : ℝ)) R :=
    Real.hasDerivAt_rpow_const (Or.inl hR.ne')
  have h3 := h1.add (h2.const_mul (2 / 3 * √a))
  refine h3.congr_deriv ?_
  have e : R ^ (-3 / 2 - 1 : ℝ) = 1 / (R ^ 2 * √R) := by
    rw [Real.sqrt_eq_rpow, ← Real.rpow_natCast R 2, ← Real.rpow_add hR, one_div, ← Real.rpow_neg hR.le]
    norm_num
  rw [e, Real.sqrt_div ha.le]
  have hs : 0 < √R := Real.sqrt_pos.2 hR
  field_simp
  ring

theorem integral_profile {a b : ℝ} (ha : 0 < a) (hab : a ≤ b) :
    ∫ R in a..b, (1 - √(a / R)) / R ^ 2 = 1 / (3 * a) * (1 - 3 * (a / b) + 2 * (a / b) ^ (3 / 2 : ℝ)) := by
  have hb : 0 < b := lt_of_lt_of_le ha hab
  have hmem : ∀ x ∈ Set.uIcc a b, 0 < x := by
    intro x hx
    rw [Set.uIcc_of_le hab] at hx
    exact lt_of_lt_of_le ha hx.1
  rw [intervalIntegral.integral_eq_sub_of_hasDerivAt (fun x hx => hasDerivAt_profile ha (hmem x hx))]
  · have e1 : ∀ x : ℝ, 0 < x → x ^ (-3 / 2 : ℝ) = 1 / (x * √x) := by
      intro x hx
      rw [Real.sqrt_eq_rpow, ← Real.rpow_one_add' hx.le (by norm_num), one_div, ← Real.rpow_neg hx.le]
      norm_num
    have e2 : (a / b) ^ (3 / 2 : ℝ) = a * √a / (b * √b) := by
      rw [Real.div_rpow ha.le hb.le]
      have : ∀ x : ℝ, 0 < x → x ^ (3 / 2 : ℝ) = x * √x := by
        intro x hx
        rw [Real.sqrt_eq_rpow, ← Real.rpow_one_add' hx.le (by norm_num)]
        norm_num
      rw [this a ha, this b hb]
    rw [e1 a ha, e1 b hb, e2]
    have hsa : 0 < √a := Real.sqrt_pos.2 ha
    have hsb : 0 < √b := Real.sqrt_pos.2 hb
    have hss : √a * √a = a := Real.mul_self_sqrt ha.le
    field_simp
    nlinarith
  · apply ContinuousOn.intervalIntegrable
    intro x hx
    have := hmem x hx
    apply ContinuousAt.continuousWithinAt
    have : x ≠ 0 := this.ne'
    fun_prop (disch := positivity)

/-- C88: the power radiated by the disk with the temperatures of `SSDisk.T` -/
theorem C88_power {k : Consts} (hk : k.Pos) {d : SSDisk} (hL : 0 < d.L_disk) (hM : 0 < d.M_BH) (he : 0 < d.eta)
    (h0 : 0 < d.R_in) (h : d.R_in ≤ d.R_out) :
    thermalPower k d d.R_in d.R_out
      = d.L_disk * (d.R_g k / (2 * d.eta * d.R_in))
        * (1 - 3 * (d.R_in / d.R_out) + 2 * (d.R_in / d.R_out) ^ (3 / 2 : ℝ)) := by
  have hc := hk.c; have hG := hk.G; have hb := hk.sigma_sb; have hp := Real.pi_pos
  have e : thermalPower k d d.R_in d.R_out
      = ∫ R in d.R_in..d.R_out, 3 / 2 * k.G * d.M_BH * d.m_dot k * ((1 - √(d.R_in / R)) / R ^ 2) := by
    unfold thermalPower
    apply intervalIntegral.integral_congr
    intro R hR
    rw [Set.uIcc_of_le h] at hR
    have hR0 : 0 < R := lt_of_lt_of_le h0 hR.1
    dsimp only
    rw [T_pow hk hL hM he h0 hR.1]
    field_simp
    ring
  rw [e, intervalIntegral.integral_const_mul, integral_profile h0 h]
  generalize 1 - 3 * (d.R_in / d.R_out) + 2 * (d.R_in / d.R_out) ^ (3 / 2 : ℝ) = y
  unfold m_dot R_g
  field_simp

/-- the share of the rings up to `R_out` is between 0 and 1 and grows with `R_out` -/
theorem share_mem {x : ℝ} (h0 : 0 < x) (h1 : x ≤ 1) :
    1 - 3 * x + 2 * x ^ (3 / 2 : ℝ) ∈ Set.Ico 0 1 := by
  have hs : 0 < √x := Real.sqrt_pos.2 h0
  have hs1 : √x ≤ 1 := Real.sqrt_le_one.2 h1
  have e : x ^ (3 / 2 : ℝ) = √x ^ 3 := by
    rw [Real.sqrt_eq_rpow, ← Real.rpow_natCast, ← Real.rpow_mul h0.le]
    norm_num
  have e2 : x = √x ^ 2 := (Real.sq_sqrt h0.le).symm
  rw [e]
  generalize √x = s at *
  subst e2
  constructor
  · have : 1 - 3 * s ^ 2 + 2 * s ^ 3 = (1 - s) ^ 2 * (1 + 2 * s) := by ring
    rw [this]
    positivity
  · nlinarith [mul_pos hs hs]

/-- C88: a disk whose inner radius is `R_g/(2η)`, such as 6 R_g for the usual efficiency 1/12, radiates less than its
luminosity, and approaches it when it is extended outwards; a disk with another inner radius approaches another power -/
theorem C88_balance {k : Consts} (hk : k.Pos) {d : SSDisk} (hL : 0 < d.L_disk) (hM : 0 < d.M_BH) (he : 0 < d.eta)
    (h0 : 0 < d.R_in) :
    Tendsto (fun R => thermalPower k { d with R_out := R } d.R_in R) atTop
      (𝓝 (d.L_disk * (d.R_g k / (2 * d.eta * d.R_in))))
    ∧ (d.R_in ≤ d.R_out → thermalPower k d d.R_in d.R_out < d.L_disk * (d.R_g k / (2 * d.eta * d.R_in)))
    ∧ (d.L_disk * (d.R_g k / (2 * d.eta * d.R_in)) = d.L_disk ↔ d.R_in_tilde k = 1 / (2 * d.eta)) := by
  have hc := hk.c; have hG := hk.G
  have hg : 0 < d.R_g k := by unfold R_g; positivity
  have hpre : 0 < d.L_disk * (d.R_g k / (2 * d.eta * d.R_in)) := by positivity
  refine ⟨?_, fun h => ?_, ?_⟩
  · have hx : Tendsto (fun R : ℝ => d.R_in / R) atTop (𝓝 0) := tendsto_const_nhds.div_atTop tendsto_id
    have hy : Tendsto (fun R : ℝ => (d.R_in / R) ^ (3 / 2 : ℝ)) atTop (𝓝 0) := by
      have := hx.rpow_const (p := (3 / 2 : ℝ)) (Or.inr (by norm_num))
      rwa [Real.zero_rpow (by norm_num)] at this
    have hl : Tendsto (fun R : ℝ => d.L_disk * (d.R_g k / (2 * d.eta * d.R_in))
        * (1 - 3 * (d.R_in / R) + 2 * (d.R_in / R) ^ (3 / 2 : ℝ))) atTop
        (𝓝 (d.L_disk * (d.R_g k / (2 * d.eta * d.R_in)) * (1 - 3 * 0 + 2 * 0))) :=
      ((tendsto_const_nhds.sub (hx.const_mul 3)).add (hy.const_mul 2)).const_mul _
    rw [show (1 : ℝ) - 3 * 0 + 2 * 0 = 1 by norm_num, mul_one] at hl
    refine hl.congr' ?_
    filter_upwards [eventually_ge_atTop d.R_in] with R hR
    exact (C88_power hk (d := { d with R_out := R }) hL hM he h0 hR).symm
  · rw [C88_power hk hL hM he h0 h]
    have hR : 0 < d.R_out := lt_of_lt_of_le h0 h
    have := (share_mem (x := d.R_in / d.R_out) (by positivity) ((div_le_one hR).2 h)).2
    exact mul_lt_of_lt_one_right hpre this
  · rw [mul_eq_left₀ hL.ne', div_eq_one_iff_eq (by positivity)]
    unfold R_in_tilde
    rw [div_eq_div_iff hg.ne' (by positivity)]
    constructor
    · intro h; linarith
    · intro h; linarith

/-- the disk of the documentation: efficiency 1/12 and inner radius 6 R_g -/
example {k : Consts} (hk : k.Pos) {M L : ℝ} (hM : 0 < M) :
    (ofTilde k M L (1 / 12) 6 200).R_in_tilde k = 1 / (2 * (ofTilde k M L (1 / 12) 6 200).eta) := by
  rw [(C49_tilde hk hM L (1 / 12) 6 200).1]
  norm_num [ofTilde]

end Verif.Targets.SSDisk

end
