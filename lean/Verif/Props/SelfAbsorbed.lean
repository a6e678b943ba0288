import Verif.Props.SynchShape
import Verif.Props.Convergence
import Verif.Props.EnergyLoss

/-
C115: at the lowest frequencies the self-absorbed source shines like a black sphere in the Rayleigh-Jeans regime, of
a temperature given by the electrons.
-/

noncomputable section

namespace Verif.Synchrotron

open MathUtils Spectra Region Filter Topology

/-- the optically thick limit of the attenuation of a sphere -/
theorem attenuation_thick : Tendsto (fun t => tauToAttenuation t * t) atTop (𝓝 (3 / 2)) := by
  have h1 : Tendsto (fun t : ℝ => Real.exp (-t) / t) atTop (𝓝 0) :=
    (Real.tendsto_exp_neg_atTop_nhds_zero).div_atTop tendsto_id
  have h2 : Tendsto (fun t : ℝ => (1 - Real.exp (-t)) / t ^ 2) atTop (𝓝 0) := by
    have : Tendsto (fun t : ℝ => 1 - Real.exp (-t)) atTop (𝓝 (1 - 0)) :=
      tendsto_const_nhds.sub Real.tendsto_exp_neg_atTop_nhds_zero
    exact this.div_atTop (tendsto_pow_atTop (by norm_num))
  have h3 : Tendsto (fun t : ℝ => 3 * (1 / 2 + Real.exp (-t) / t - (1 - Real.exp (-t)) / t ^ 2)) atTop
      (𝓝 (3 * (1 / 2 + 0 - 0))) := ((tendsto_const_nhds.add h1).sub h2).const_mul 3
  have e : (3 * (1 / 2 + 0 - 0) : ℝ) = 3 / 2 := by norm_num
  rw [e] at h3
  refine h3.congr' ?_
  filter_upwards [eventually_ge_atTop 1] with t ht
  have h0 : t ≠ 0 := by linarith
  unfold tauToAttenuation
  dsimp only
  rw [if_neg (by linarith)]
  field_simp

/-- sums over the electrons of any weight: at low frequencies the power of an electron is proportional to
`nu^(1/3) gamma^(-2/3)` -/
theorem power_sum_low {k : Consts} (hk : k.Pos) {B κ : ℝ} (hB : 0 < B) (hκ : 0 < κ) {l : List ℝ} (hl : ∀ g ∈ l, 0 < g)
    (w : ℝ → ℝ) :
    Tendsto (fun nu => (Verif.over trapz l fun g => w g * power k B (κ * nu) g k.m_e) / nu ^ (1 / 3 : ℝ)) (𝓝[>] 0)
      (𝓝 (√3 * k.e ^ 3 * B / k.h * (1808 / 1000 * calcX k B κ 1 k.m_e ^ (1 / 3 : ℝ))
        * Verif.over trapz l fun g => w g * g ^ (-(2 / 3) : ℝ))) := by
  have hQ : 0 < calcX k B κ 1 k.m_e := calcX_pos hk hB hκ hk.m_e one_pos
  set Q := calcX k B κ 1 k.m_e with hQdef
  have hC : ∀ g : ℝ, 0 < g → ∀ nu, calcX k B (κ * nu) g k.m_e = Q / g ^ 2 * nu := by
    intro g hg nu
    rw [hQdef]
    unfold calcX
    have := hk.e
    have := hk.h
    field_simp
  have hroot : ∀ g : ℝ, 0 < g → (Q / g ^ 2) ^ (1 / 3 : ℝ) = Q ^ (1 / 3 : ℝ) * g ^ (-(2 / 3) : ℝ) := by
    intro g hg
    rw [Real.div_rpow hQ.le (by positivity), ← Real.rpow_natCast, ← Real.rpow_mul hg.le, Real.rpow_neg hg.le,
      div_eq_mul_inv]
    norm_num
  have key : Tendsto (fun nu => Verif.over trapz l fun g => w g * (√3 * k.e ^ 3 * B / k.h
      * (R (Q / g ^ 2 * nu) / (Q / g ^ 2 * nu) ^ (1 / 3 : ℝ) * (Q / g ^ 2) ^ (1 / 3 : ℝ)))) (𝓝[>] 0)
      (𝓝 (Verif.over trapz l fun g => w g * (√3 * k.e ^ 3 * B / k.h
        * (1808 / 1000 * (Q / g ^ 2) ^ (1 / 3 : ℝ))))) := by
    refine over_trapz_tendsto _ (fun g hgm => ?_)
    have hg := hl g hgm
    have hc : 0 < Q / g ^ 2 := by positivity
    have hin : Tendsto (fun nu : ℝ => Q / g ^ 2 * nu) (𝓝[>] 0) (𝓝[>] 0) := by
      refine tendsto_nhdsWithin_iff.2 ⟨?_, ?_⟩
      · have : Tendsto (fun nu : ℝ => Q / g ^ 2 * nu) (𝓝 0) (𝓝 (Q / g ^ 2 * 0)) :=
          (continuous_const.mul continuous_id).tendsto 0
        rw [mul_zero] at this
        exact this.mono_left nhdsWithin_le_nhds
      · filter_upwards [self_mem_nhdsWithin] with nu hnu
        exact mul_pos hc hnu
    exact (((R_low.comp hin).mul_const _).const_mul _).const_mul _
  have elim : (Verif.over trapz l fun g => w g * (√3 * k.e ^ 3 * B / k.h * (1808 / 1000 * (Q / g ^ 2) ^ (1 / 3 : ℝ))))
      = √3 * k.e ^ 3 * B / k.h * (1808 / 1000 * Q ^ (1 / 3 : ℝ))
        * Verif.over trapz l fun g => w g * g ^ (-(2 / 3) : ℝ) := by
    rw [← over_trapz_mul]
    refine over_congr fun g hg => ?_
    rw [hroot g (hl g hg)]
    ring
  rw [elim] at key
  refine key.congr' ?_
  filter_upwards [self_mem_nhdsWithin] with nu hnu
  have hnu : (0 : ℝ) < nu := hnu
  have h13 : (0 : ℝ) < nu ^ (1 / 3 : ℝ) := Real.rpow_pos_of_pos hnu _
  have hdiv : ∀ s : ℝ, s / nu ^ (1 / 3 : ℝ) = (nu ^ (1 / 3 : ℝ))⁻¹ * s := fun s => by rw [div_eq_mul_inv, mul_comm]
  rw [hdiv (Verif.over trapz l fun g => w g * power k B (κ * nu) g k.m_e), ← over_trapz_mul]
  refine over_congr fun g hgm => ?_
  have hg := hl g hgm
  have hc : 0 < Q / g ^ 2 := by positivity
  have hc13 : (0 : ℝ) < (Q / g ^ 2) ^ (1 / 3 : ℝ) := Real.rpow_pos_of_pos hc _
  unfold power
  dsimp only
  rw [hC g hg, Real.mul_rpow hc.le hnu.le]
  generalize R (Q / g ^ 2 * nu) = r
  generalize (Q / g ^ 2) ^ (1 / 3 : ℝ) = c at hc13
  field_simp

/-- the sum over the electrons that emit at the lowest frequencies -/
def emitters (b : Blob) : ℝ := Verif.over trapz b.gamma_e fun g => b.n_e.call g * g ^ (-(2 / 3) : ℝ)

/-- the sum over the electrons that absorb at the lowest frequencies -/
def absorbers (b : Blob) : ℝ := -Verif.over trapz b.gamma_e fun g => b.n_e.ssa g * g ^ (-(2 / 3) : ℝ)

/-- the opacity as a sum over the blob's Lorentz factors -/
theorem tauSSA_sum {k : Consts} {b : Blob} (hg : b.GoodGrid) (nu : ℝ) :
    tauSSA k trapz nu b.z b.delta_D b.B b.R_b b.n_e b.gamma_e
      = 2 * (-1 / (8 * Real.pi * k.m_e * nuToEps k nu b.z b.delta_D ^ 2) * (k.lambda_c_e / k.c) ^ 3
        * Verif.over trapz b.gamma_e fun g => b.n_e.ssa g * power k b.B (nuToEps k nu b.z b.delta_D) g k.m_e) * b.R_b := by
  unfold tauSSA
  rw [show b.n_e.ssaIntegrand b.gamma_e = _ from Spectra.Dist.ssaIntegrand_own hg.pos hg.lt hg.size]
  dsimp only
  rw [zipWith_mul_map]
  rfl

/-- **C115**: the self-absorbed SED at the lowest frequencies is that of a black sphere of the size of the blob, moving
with it, with Planck's function in the limit of Rayleigh and Jeans, `2 nu'^2 kT / c^2` at the comoving frequency
`nu' = nu (1 + z) / delta_D`; the temperature is `kT = gamma m_e c^2`, `gamma` the ratio of the two sums over the
electrons. -/
theorem C115_rayleigh_jeans {k : Consts} {b : Blob} (hg : b.GoodGrid)
    (hp : Physical k 1 b.z b.d_L b.delta_D b.B b.R_b b.n_e) (hD : 0 < absorbers b) :
    Tendsto (fun nu => sedFlux k trapz true nu b.z b.d_L b.delta_D b.B b.R_b b.n_e b.gamma_e / nu ^ 3) (𝓝[>] 0)
      (𝓝 (b.delta_D ^ 4 * (Real.pi * b.R_b ^ 2 / b.d_L ^ 2) * ((1 + b.z) / b.delta_D) ^ 3
        * (2 * (emitters b / absorbers b * k.mec2) / k.c ^ 2))) := by
  have hk := hp.consts
  have hB := hp.B
  have hd := hp.delta
  have hdl := hp.d_L
  have hR := hp.R_b
  have hke := hk.e
  have hkh := hk.h
  have hkc := hk.c
  have hkm := hk.m_e
  have hkap := nuToEps_pos hk hp.nu hp.z hp.delta
  have hkval : nuToEps k 1 b.z b.delta_D = (1 + b.z) / b.delta_D * (k.h / k.mec2) := by
    unfold nuToEps; ring
  generalize hkap' : nuToEps k 1 b.z b.delta_D = κ at hkap hkval
  have hnu : ∀ nu, nuToEps k nu b.z b.delta_D = κ * nu := by
    intro nu
    rw [← hkap']
    unfold nuToEps
    ring
  have hpos : ∀ g ∈ b.gamma_e, 0 < g := Blob.gamma_e_pos b
  have hA := power_sum_low hk hB hkap hpos b.n_e.call
  have hS := power_sum_low hk hB hkap hpos b.n_e.ssa
  have hc0 : 0 < √3 * k.e ^ 3 * b.B / k.h * (1808 / 1000 * calcX k b.B κ 1 k.m_e ^ (1 / 3 : ℝ)) := by
    have := Real.rpow_pos_of_pos (calcX_pos hk hB hkap hk.m_e one_pos) (1 / 3 : ℝ)
    positivity
  generalize √3 * k.e ^ 3 * b.B / k.h * (1808 / 1000 * calcX k b.B κ 1 k.m_e ^ (1 / 3 : ℝ)) = c0 at hA hS hc0
  have eA : (Verif.over trapz b.gamma_e fun g => b.n_e.call g * g ^ (-(2 / 3) : ℝ)) = emitters b := rfl
  have eS : (Verif.over trapz b.gamma_e fun g => b.n_e.ssa g * g ^ (-(2 / 3) : ℝ)) = -absorbers b := by
    unfold absorbers; ring
  rw [eA] at hA
  rw [eS] at hS
  set FA : ℝ → ℝ := fun nu => (Verif.over trapz b.gamma_e fun g => b.n_e.call g * power k b.B (κ * nu) g k.m_e)
    / nu ^ (1 / 3 : ℝ) with hFA
  set FS : ℝ → ℝ := fun nu => (Verif.over trapz b.gamma_e fun g => b.n_e.ssa g * power k b.B (κ * nu) g k.m_e)
    / nu ^ (1 / 3 : ℝ) with hFS
  generalize emitters b = A at hA ⊢
  generalize absorbers b = D at hD hS ⊢
  -- the opacity
  set lam := (k.lambda_c_e / k.c) ^ 3 with hlam
  have hlampos : 0 < lam := by
    rw [hlam]
    have : 0 < k.lambda_c_e := by unfold Consts.lambda_c_e; positivity
    positivity
  set τ : ℝ → ℝ := fun nu => tauSSA k trapz nu b.z b.delta_D b.B b.R_b b.n_e b.gamma_e with hτ
  set m := b.R_b * lam / (4 * Real.pi * k.m_e * κ ^ 2) with hm
  have hmpos : 0 < m := by positivity
  have hτeq : ∀ nu, 0 < nu → τ nu = m * (-FS nu) * nu ^ (-(5 / 3) : ℝ) := by
    intro nu h0
    have h13 : (0 : ℝ) < nu ^ (1 / 3 : ℝ) := Real.rpow_pos_of_pos h0 _
    have h53 : nu ^ (-(5 / 3) : ℝ) = nu ^ (1 / 3 : ℝ) / nu ^ 2 := by
      rw [← Real.rpow_natCast nu 2, ← Real.rpow_sub h0]; norm_num
    rw [hτ]
    dsimp only
    rw [tauSSA_sum hg, hnu, ← hlam, h53, hFS, hm]
    dsimp only
    generalize (Verif.over trapz b.gamma_e fun g => b.n_e.ssa g * power k b.B (κ * nu) g k.m_e) = s
    field_simp
    ring
  have hthick : Tendsto τ (𝓝[>] 0) atTop := by
    have h1 : Tendsto (fun nu => m * (-FS nu)) (𝓝[>] 0) (𝓝 (m * (-(c0 * -D)))) := hS.neg.const_mul m
    have h2 : Tendsto (fun nu : ℝ => nu ^ (-(5 / 3) : ℝ)) (𝓝[>] 0) atTop :=
      tendsto_rpow_neg_nhdsGT_zero (by norm_num)
    have h3 : 0 < m * (-(c0 * -D)) := by
      have : 0 < c0 * D := mul_pos hc0 hD
      have : -(c0 * -D) = c0 * D := by ring
      rw [this]; positivity
    refine (h1.pos_mul_atTop h3 h2).congr' ?_
    filter_upwards [self_mem_nhdsWithin] with nu h0
    exact (hτeq nu h0).symm
  have hatt := attenuation_thick.comp hthick
  -- the ratio of the thin SED to the opacity
  set M := b.delta_D ^ 4 / (4 * Real.pi * b.d_L ^ 2) * κ * volume b.R_b / m with hM
  have hratio : Tendsto (fun nu => M * (FA nu / -FS nu)) (𝓝[>] 0) (𝓝 (M * (c0 * A / -(c0 * -D)))) := by
    refine (hA.div hS.neg ?_).const_mul M
    have : 0 < c0 * D := mul_pos hc0 hD
    have h : -(c0 * -D) = c0 * D := by ring
    rw [h]; exact this.ne'
  have hlimit := hratio.mul hatt
  have elim : M * (c0 * A / -(c0 * -D)) * (3 / 2)
      = b.delta_D ^ 4 * (Real.pi * b.R_b ^ 2 / b.d_L ^ 2) * ((1 + b.z) / b.delta_D) ^ 3
        * (2 * (A / D * k.mec2) / k.c ^ 2) := by
    rw [hM, hm, hlam, hkval]
    unfold volume Consts.lambda_c_e Consts.mec2
    have hz : (1 + b.z) ≠ 0 := by have := hp.z; linarith
    field_simp
    ring
  rw [elim] at hlimit
  refine hlimit.congr' ?_
  have hne : ∀ᶠ nu in 𝓝[>] 0, 0 < τ nu := hthick.eventually (eventually_gt_atTop 0)
  filter_upwards [self_mem_nhdsWithin, hne] with nu h0 hτ0
  have h0 : (0 : ℝ) < nu := h0
  have h13 : (0 : ℝ) < nu ^ (1 / 3 : ℝ) := Real.rpow_pos_of_pos h0 _
  have hsed : sedFlux k trapz true nu b.z b.d_L b.delta_D b.B b.R_b b.n_e b.gamma_e
      = sedThin k trapz nu b.z b.d_L b.delta_D b.B b.R_b b.n_e b.gamma_e * tauToAttenuation (τ nu) := by
    unfold sedFlux
    rw [hg.afterCall]
    rfl
  have hthin : sedThin k trapz nu b.z b.d_L b.delta_D b.B b.R_b b.n_e b.gamma_e
      = b.delta_D ^ 4 / (4 * Real.pi * b.d_L ^ 2) * κ * volume b.R_b * (FA nu * (nu * nu ^ (1 / 3 : ℝ))) := by
    rw [sedThin_eq, hg.afterCall, hnu]
    have : (Verif.over trapz b.gamma_e fun g => volume b.R_b * b.n_e.call g * power k b.B (κ * nu) g k.m_e)
        = volume b.R_b * Verif.over trapz b.gamma_e fun g => b.n_e.call g * power k b.B (κ * nu) g k.m_e := by
      rw [← over_trapz_mul]
      exact over_congr fun g _ => by ring
    rw [this, hFA]
    dsimp only
    generalize (Verif.over trapz b.gamma_e fun g => b.n_e.call g * power k b.B (κ * nu) g k.m_e) = s
    field_simp
  have hFS0 : FS nu ≠ 0 := by
    intro hc
    have := hτeq nu h0
    rw [hc] at this
    simp at this
    linarith
  have h53 : nu ^ (-(5 / 3) : ℝ) = nu ^ (1 / 3 : ℝ) / nu ^ 2 := by
    rw [← Real.rpow_natCast nu 2, ← Real.rpow_sub h0]; norm_num
  simp only [Function.comp]
  rw [hsed, hthin]
  generalize hatt' : tauToAttenuation (τ nu) = a
  rw [hτeq nu h0, h53, hM]
  have hv : volume b.R_b ≠ 0 := by unfold volume; positivity
  generalize FA nu = fa
  generalize FS nu = fs at hFS0
  field_simp

/-- the density over the Lorentz factor, summed like the emitters, is positive -/
theorem weight_pos {b : Blob} (hg : b.GoodGrid) (hn : b.n_e.NonEmpty) (hd : b.n_e.Positive) :
    0 < Verif.over trapz b.gamma_e fun g => b.n_e.call g / g * g ^ (-(2 / 3) : ℝ) := by
  have hpos := Blob.gamma_e_pos b
  have hch : b.gamma_e.IsChain (· < ·) := List.isChain_iff_pairwise.2 hg.pairwise
  obtain ⟨mid, hm⟩ := hg.ends
  rw [hm] at hch hpos ⊢
  unfold Verif.over
  rw [List.map_cons]
  apply trapz_pos (by simp) (by simp) hch
  · exact mul_pos (div_pos (C23_inside hd hn le_rfl hg.lt.le) hg.pos) (Real.rpow_pos_of_pos hg.pos _)
  · intro v hvm
    obtain ⟨g, hgm, rfl⟩ := List.mem_map.1 hvm
    have hgp := hpos g (List.mem_cons_of_mem _ hgm)
    exact mul_nonneg (div_nonneg (C23_nonneg hd g) hgp.le) (Real.rpow_nonneg hgp.le _)

/-- **C115**: the temperature lies between those of the slowest and the fastest electrons: if the density falls like a
power of the Lorentz factor whose index is, everywhere on the grid, between `p` and `p'` (`SSA_integrand` is minus
(index + 2) times density over Lorentz factor), the effective Lorentz factor is between `gamma_min / (p' + 2)` and
`gamma_max / (p + 2)`, and there are absorbers. -/
theorem C115_temperature {b : Blob} (hg : b.GoodGrid) (hn : b.n_e.NonEmpty) (hd : b.n_e.Positive) {p p' : ℝ} (hp : -2 < p)
    (hs : ∀ g ∈ b.gamma_e, (p + 2) * (b.n_e.call g / g) ≤ -b.n_e.ssa g ∧ -b.n_e.ssa g ≤ (p' + 2) * (b.n_e.call g / g)) :
    0 < absorbers b ∧ b.n_e.gmin / (p' + 2) ≤ emitters b / absorbers b
      ∧ emitters b / absorbers b ≤ b.n_e.gmax / (p + 2) := by
  have hpos := Blob.gamma_e_pos b
  have hin : ∀ g ∈ b.gamma_e, b.n_e.gmin ≤ g ∧ g ≤ b.n_e.gmax := by
    obtain ⟨mid, hm⟩ := hg.ends
    exact fun g h => mem_of_ends hm hg.chain g h
  have hchain : (b.gamma_e.map fun g => g).IsChain (· ≤ ·) := by simpa using hg.chain
  set W := Verif.over trapz b.gamma_e fun g => b.n_e.call g / g * g ^ (-(2 / 3) : ℝ) with hW
  have hmono : ∀ f h : ℝ → ℝ, (∀ g ∈ b.gamma_e, f g ≤ h g) → Verif.over trapz b.gamma_e f ≤ Verif.over trapz b.gamma_e h := by
    intro f h hfh
    have := trapz_mono b.gamma_e f h (fun g => g) hchain hfh
    simpa [Verif.over] using this
  have hW0 : 0 < W := weight_pos hg hn hd
  have habs : absorbers b = Verif.over trapz b.gamma_e fun g => -b.n_e.ssa g * g ^ (-(2 / 3) : ℝ) := by
    unfold absorbers
    rw [neg_eq_neg_one_mul, ← over_trapz_mul]
    exact over_congr fun g _ => by ring
  have hw : ∀ g ∈ b.gamma_e, (0 : ℝ) ≤ g ^ (-(2 / 3) : ℝ) := fun g h => Real.rpow_nonneg (hpos g h).le _
  have hlow : (p + 2) * W ≤ absorbers b := by
    rw [habs, hW, ← over_trapz_mul]
    refine hmono _ _ fun g h => ?_
    have := mul_le_mul_of_nonneg_right (hs g h).1 (hw g h)
    linarith
  have hupp : absorbers b ≤ (p' + 2) * W := by
    rw [habs, hW, ← over_trapz_mul]
    refine hmono _ _ fun g h => ?_
    have := mul_le_mul_of_nonneg_right (hs g h).2 (hw g h)
    linarith
  have hE1 : b.n_e.gmin * W ≤ emitters b := by
    unfold emitters
    rw [hW, ← over_trapz_mul]
    refine hmono _ _ fun g h => ?_
    have hg0 := hpos g h
    have h1 : b.n_e.gmin * (b.n_e.call g / g) ≤ b.n_e.call g := by
      rw [mul_div_assoc', div_le_iff₀ hg0, mul_comm]
      exact mul_le_mul_of_nonneg_left (hin g h).1 (C23_nonneg hd g)
    have := mul_le_mul_of_nonneg_right h1 (hw g h)
    linarith
  have hE2 : emitters b ≤ b.n_e.gmax * W := by
    unfold emitters
    rw [hW, ← over_trapz_mul]
    refine hmono _ _ fun g h => ?_
    have hg0 := hpos g h
    have h1 : b.n_e.call g ≤ b.n_e.gmax * (b.n_e.call g / g) := by
      rw [mul_div_assoc', le_div_iff₀ hg0, mul_comm b.n_e.gmax]
      exact mul_le_mul_of_nonneg_left (hin g h).2 (C23_nonneg hd g)
    have := mul_le_mul_of_nonneg_right h1 (hw g h)
    linarith
  have hp2 : 0 < p + 2 := by linarith
  have hD : 0 < absorbers b := lt_of_lt_of_le (mul_pos hp2 hW0) hlow
  have hp2' : 0 < p' + 2 := by
    by_contra hc
    have := mul_nonpos_of_nonpos_of_nonneg (not_lt.mp hc) hW0.le
    linarith
  have hmin := hg.pos
  have hmax : 0 < b.n_e.gmax := hmin.trans hg.lt
  refine ⟨hD, ?_, ?_⟩
  · rw [div_le_div_iff₀ hp2' hD]
    calc b.n_e.gmin * absorbers b ≤ b.n_e.gmin * ((p' + 2) * W) := mul_le_mul_of_nonneg_left hupp hmin.le
      _ = b.n_e.gmin * W * (p' + 2) := by ring
      _ ≤ emitters b * (p' + 2) := mul_le_mul_of_nonneg_right hE1 hp2'.le
  · rw [div_le_div_iff₀ hD hp2]
    calc emitters b * (p + 2) ≤ b.n_e.gmax * W * (p + 2) := mul_le_mul_of_nonneg_right hE2 hp2.le
      _ = b.n_e.gmax * ((p + 2) * W) := by ring
      _ ≤ b.n_e.gmax * absorbers b := mul_le_mul_of_nonneg_left hlow hmax.le

/-- `SSA_integrand` of a power law -/
theorem power_law_ssa {b : Blob} {K p gmin gmax : ℝ} (hb : b.n_e = .powerLaw K p gmin gmax) :
    ∀ g ∈ b.gamma_e, -b.n_e.ssa g = (p + 2) * (b.n_e.call g / g) := by
  intro g h
  have hg0 := Blob.gamma_e_pos b g h
  rw [hb]
  simp only [Spectra.Dist.ssa, Spectra.Dist.ssaElem, Spectra.Dist.call, powerLawSSA, powerLawAt]
  split_ifs
  · rw [Real.rpow_sub hg0, Real.rpow_one]
    ring
  · simp

theorem power_law_positive {b : Blob} (hg : b.GoodGrid) {K p gmin gmax : ℝ} (hb : b.n_e = .powerLaw K p gmin gmax)
    (hK : 0 < K) : b.n_e.NonEmpty ∧ b.n_e.Positive := by
  refine ⟨by rw [hb]; simp [Spectra.Dist.NonEmpty], ?_⟩
  have := hg.pos
  rw [hb] at this ⊢
  exact ⟨hK, this⟩

/-- **C115** for a power law: the temperature is between `gamma_min / (p + 2)` and `gamma_max / (p + 2)` rest energies -/
theorem C115_power_law {b : Blob} (hg : b.GoodGrid) {K p gmin gmax : ℝ} (hb : b.n_e = .powerLaw K p gmin gmax) (hK : 0 < K)
    (hp : -2 < p) :
    0 < absorbers b ∧ gmin / (p + 2) ≤ emitters b / absorbers b ∧ emitters b / absorbers b ≤ gmax / (p + 2) := by
  obtain ⟨hn, hd⟩ := power_law_positive hg hb hK
  have hs := power_law_ssa hb
  have := C115_temperature (p := p) (p' := p) hg hn hd hp fun g h => ⟨(hs g h).ge, (hs g h).le⟩
  rw [show b.n_e.gmin = gmin by rw [hb]; rfl, show b.n_e.gmax = gmax by rw [hb]; rfl] at this
  exact this

/-- **C115** for a power law: there are absorbers exactly for the indices above minus two -/
theorem C115_absorbers_iff {b : Blob} (hg : b.GoodGrid) {K p gmin gmax : ℝ} (hb : b.n_e = .powerLaw K p gmin gmax)
    (hK : 0 < K) : (0 < absorbers b ↔ -2 < p) ∧ (absorbers b < 0 ↔ p < -2) := by
  obtain ⟨hn, hd⟩ := power_law_positive hg hb hK
  have hW := weight_pos hg hn hd
  have e : absorbers b = (p + 2) * Verif.over trapz b.gamma_e fun g => b.n_e.call g / g * g ^ (-(2 / 3) : ℝ) := by
    unfold absorbers
    rw [neg_eq_neg_one_mul, ← over_trapz_mul, ← over_trapz_mul]
    refine over_congr fun g h => ?_
    have := power_law_ssa hb g h
    rw [← mul_assoc, neg_one_mul, this, mul_assoc]
  rw [e]
  generalize (Verif.over trapz b.gamma_e fun g => b.n_e.call g / g * g ^ (-(2 / 3) : ℝ)) = W at hW
  constructor
  · rw [mul_pos_iff_of_pos_right hW]
    constructor <;> intro h <;> linarith
  · rw [mul_neg_iff]
    constructor
    · rintro (⟨_, h⟩ | ⟨h, _⟩) <;> linarith
    · intro h
      exact Or.inr ⟨by linarith, hW⟩

/-- **C115**, inverted spectra: if the density grows so fast with the Lorentz factor that the sum over the absorbers is
negative, the code applies no absorption at all at the lowest frequencies. -/
theorem C115_inverted {k : Consts} {b : Blob} (hg : b.GoodGrid)
    (hp : Physical k 1 b.z b.d_L b.delta_D b.B b.R_b b.n_e) (hD : absorbers b < 0) :
    ∀ᶠ nu in 𝓝[>] 0, sedFlux k trapz true nu b.z b.d_L b.delta_D b.B b.R_b b.n_e b.gamma_e
      = sedFlux k trapz false nu b.z b.d_L b.delta_D b.B b.R_b b.n_e b.gamma_e := by
  have hk := hp.consts
  have hB := hp.B
  have hR := hp.R_b
  have hke := hk.e
  have hkh := hk.h
  have hkc := hk.c
  have hkm := hk.m_e
  have hkap := nuToEps_pos hk hp.nu hp.z hp.delta
  generalize hkap' : nuToEps k 1 b.z b.delta_D = κ at hkap
  have hnu : ∀ nu, nuToEps k nu b.z b.delta_D = κ * nu := by
    intro nu
    rw [← hkap']
    unfold nuToEps
    ring
  have hS := power_sum_low hk hB hkap (Blob.gamma_e_pos b) b.n_e.ssa
  have hc0 : 0 < √3 * k.e ^ 3 * b.B / k.h * (1808 / 1000 * calcX k b.B κ 1 k.m_e ^ (1 / 3 : ℝ)) := by
    have := Real.rpow_pos_of_pos (calcX_pos hk hB hkap hk.m_e one_pos) (1 / 3 : ℝ)
    positivity
  have hlim : 0 < √3 * k.e ^ 3 * b.B / k.h * (1808 / 1000 * calcX k b.B κ 1 k.m_e ^ (1 / 3 : ℝ))
      * Verif.over trapz b.gamma_e fun g => b.n_e.ssa g * g ^ (-(2 / 3) : ℝ) := by
    refine mul_pos hc0 ?_
    unfold absorbers at hD
    linarith
  filter_upwards [self_mem_nhdsWithin, hS.eventually (lt_mem_nhds hlim)] with nu h0 hpos
  have h0 : (0 : ℝ) < nu := h0
  have h13 : (0 : ℝ) < nu ^ (1 / 3 : ℝ) := Real.rpow_pos_of_pos h0 _
  have hs := (div_pos_iff_of_pos_right h13).mp hpos
  have hτ : tauSSA k trapz nu b.z b.delta_D b.B b.R_b b.n_e b.gamma_e < 1 / 1000 := by
    rw [tauSSA_sum hg, hnu]
    have hl : 0 < (k.lambda_c_e / k.c) ^ 3 := by
      have : 0 < k.lambda_c_e := by unfold Consts.lambda_c_e; positivity
      positivity
    generalize (Verif.over trapz b.gamma_e fun g => b.n_e.ssa g * power k b.B (κ * nu) g k.m_e) = s at hs
    have : 0 < 2 * (1 / (8 * Real.pi * k.m_e * (κ * nu) ^ 2) * (k.lambda_c_e / k.c) ^ 3 * s) * b.R_b := by positivity
    have e : 2 * (-1 / (8 * Real.pi * k.m_e * (κ * nu) ^ 2) * (k.lambda_c_e / k.c) ^ 3 * s) * b.R_b
        = -(2 * (1 / (8 * Real.pi * k.m_e * (κ * nu) ^ 2) * (k.lambda_c_e / k.c) ^ 3 * s) * b.R_b) := by ring
    rw [e]
    linarith
  unfold sedFlux
  rw [hg.afterCall]
  simp only [if_true, Bool.false_eq_true, if_false]
  have : tauToAttenuation (tauSSA k trapz nu b.z b.delta_D b.B b.R_b b.n_e b.gamma_e) = 1 := by
    unfold tauToAttenuation
    exact if_pos hτ
  rw [this, mul_one]

/-- an attenuated sphere emits at most its surface's worth -/
theorem attenuation_mul_le {t : ℝ} (ht : 0 ≤ t) : tauToAttenuation t * t ≤ 3 / 2 := by
  unfold tauToAttenuation
  dsimp only
  split_ifs with h
  · linarith
  · have h0 : 0 < t := by linarith
    have he : (1 + t) * Real.exp (-t) ≤ 1 := by
      rw [Real.exp_neg, ← div_eq_mul_inv, div_le_one (Real.exp_pos t)]
      linarith [Real.add_one_le_exp t]
    have hu : 1 / 2 + Real.exp (-t) / t - (1 - Real.exp (-t)) / t ^ 2 ≤ 1 / 2 := by
      have : Real.exp (-t) / t ≤ (1 - Real.exp (-t)) / t ^ 2 := by
        rw [div_le_div_iff₀ h0 (by positivity)]
        nlinarith
      linarith
    rw [div_mul_cancel₀ _ h0.ne']
    linarith

/-- **C115**, at every frequency: the self-absorbed SED is never above that of the black sphere whose temperature is
`gamma_max / (p + 2)` rest energies, if the index of the density is at least `p` on the grid. -/
theorem C115_brightness {k : Consts} {b : Blob} (hg : b.GoodGrid) {nu : ℝ}
    (hp : Physical k nu b.z b.d_L b.delta_D b.B b.R_b b.n_e) {p : ℝ} (hp2 : -2 < p)
    (hs : ∀ g ∈ b.gamma_e, (p + 2) * (b.n_e.call g / g) ≤ -b.n_e.ssa g) :
    sedFlux k trapz true nu b.z b.d_L b.delta_D b.B b.R_b b.n_e b.gamma_e
      ≤ b.delta_D ^ 4 * (Real.pi * b.R_b ^ 2 / b.d_L ^ 2) * ((1 + b.z) / b.delta_D) ^ 3
        * (2 * (b.n_e.gmax / (p + 2) * k.mec2) / k.c ^ 2) * nu ^ 3 := by
  have hk := hp.consts
  have hB := hp.B
  have hd := hp.delta
  have hdl := hp.d_L
  have hR := hp.R_b
  have hkh := hk.h
  have hkc := hk.c
  have hkm := hk.m_e
  have hν := hp.nu
  have hz : 0 < 1 + b.z := by have := hp.z; linarith
  have heps := nuToEps_pos hk hp.nu hp.z hp.delta
  have hval : nuToEps k nu b.z b.delta_D = (1 + b.z) / b.delta_D * (k.h / k.mec2) * nu := by
    unfold nuToEps; ring
  have hmono : ∀ f h : ℝ → ℝ, (∀ g ∈ b.gamma_e, f g ≤ h g) →
      Verif.over trapz b.gamma_e f ≤ Verif.over trapz b.gamma_e h := by
    intro f h hfh
    have := trapz_mono b.gamma_e f h (fun g => g) (by simpa using hg.chain) hfh
    simpa [Verif.over] using this
  generalize hε : nuToEps k nu b.z b.delta_D = ε at heps hval
  set A := Verif.over trapz b.gamma_e fun g => b.n_e.call g * power k b.B ε g k.m_e with hA
  set S := Verif.over trapz b.gamma_e fun g => b.n_e.ssa g * power k b.B ε g k.m_e with hS
  have hp0 : 0 < p + 2 := by linarith
  have hmax : 0 < b.n_e.gmax := hg.pos.trans hg.lt
  -- the electrons absorb at least as much as the fastest ones would
  have hAS : A * (p + 2) ≤ b.n_e.gmax * -S := by
    have e1 : A * (p + 2) = Verif.over trapz b.gamma_e fun g => (p + 2) * (b.n_e.call g * power k b.B ε g k.m_e) := by
      rw [over_trapz_mul, mul_comm]
    have e2 : b.n_e.gmax * -S = Verif.over trapz b.gamma_e fun g => -b.n_e.gmax * (b.n_e.ssa g * power k b.B ε g k.m_e) := by
      rw [over_trapz_mul, neg_mul, mul_neg]
    rw [e1, e2]
    refine hmono _ _ fun g h => ?_
    obtain ⟨hg0, hgm⟩ := good_mem hg h
    have hP := power_nonneg hk hB heps.le g k.m_e
    have hn := C23_nonneg hp.dist g
    have h1 : (p + 2) * b.n_e.call g ≤ b.n_e.gmax * -b.n_e.ssa g := by
      calc (p + 2) * b.n_e.call g = g * ((p + 2) * (b.n_e.call g / g)) := by field_simp
        _ ≤ b.n_e.gmax * ((p + 2) * (b.n_e.call g / g)) :=
          mul_le_mul_of_nonneg_right hgm (mul_nonneg hp0.le (div_nonneg hn hg0.le))
        _ ≤ b.n_e.gmax * -b.n_e.ssa g := mul_le_mul_of_nonneg_left (hs g h) hmax.le
    have := mul_le_mul_of_nonneg_right h1 hP
    linarith
  have hA0 : 0 ≤ A := by
    have := hmono (fun _ => 0 * 0) (fun g => b.n_e.call g * power k b.B ε g k.m_e) fun g _ => by
      simpa using mul_nonneg (C23_nonneg hp.dist g) (power_nonneg hk hB heps.le g k.m_e)
    rw [over_trapz_mul, zero_mul] at this
    exact this
  have hS0 : 0 ≤ -S := by
    by_contra hc
    have h1 := mul_neg_of_pos_of_neg hmax (not_le.mp hc)
    have h2 := mul_nonneg hA0 hp0.le
    linarith
  set m := b.R_b * (k.lambda_c_e / k.c) ^ 3 / (4 * Real.pi * k.m_e * ε ^ 2) with hm
  have hmpos : 0 < m := by
    have : 0 < k.lambda_c_e := by unfold Consts.lambda_c_e; positivity
    positivity
  have hτ : tauSSA k trapz nu b.z b.delta_D b.B b.R_b b.n_e b.gamma_e = m * -S := by
    rw [tauSSA_sum hg, hε, ← hS, hm]
    field_simp
    ring
  have hatt := attenuation_mul_le (mul_nonneg hmpos.le hS0)
  have hsed : sedFlux k trapz true nu b.z b.d_L b.delta_D b.B b.R_b b.n_e b.gamma_e
      = b.delta_D ^ 4 / (4 * Real.pi * b.d_L ^ 2) * ε * volume b.R_b * A * tauToAttenuation (m * -S) := by
    unfold sedFlux
    rw [hg.afterCall]
    simp only [if_true]
    rw [hτ, sedThin_eq, hg.afterCall, hε]
    have : (Verif.over trapz b.gamma_e fun g => volume b.R_b * b.n_e.call g * power k b.B ε g k.m_e)
        = volume b.R_b * A := by
      rw [hA, ← over_trapz_mul]
      exact over_congr fun g _ => by ring
    rw [this]
    ring
  have hatt0 : 0 ≤ tauToAttenuation (m * -S) := (C42_ssa_range _).1.le
  have hfin : A * tauToAttenuation (m * -S) ≤ b.n_e.gmax / (p + 2) * (3 / 2 / m) := by
    have h1 : A ≤ b.n_e.gmax / (p + 2) * -S := by
      rw [div_mul_eq_mul_div, le_div_iff₀ hp0]; exact hAS
    have h2 : -S * tauToAttenuation (m * -S) ≤ 3 / 2 / m := by
      rw [le_div_iff₀ hmpos]; linarith
    calc A * tauToAttenuation (m * -S) ≤ b.n_e.gmax / (p + 2) * -S * tauToAttenuation (m * -S) :=
          mul_le_mul_of_nonneg_right h1 hatt0
      _ = b.n_e.gmax / (p + 2) * (-S * tauToAttenuation (m * -S)) := by ring
      _ ≤ _ := mul_le_mul_of_nonneg_left h2 (by positivity)
  have hv : 0 < volume b.R_b := by unfold volume; positivity
  rw [hsed, mul_assoc _ A]
  refine (mul_le_mul_of_nonneg_left hfin (by positivity)).trans_eq ?_
  rw [hm, hval]
  unfold volume Consts.lambda_c_e Consts.mec2
  field_simp
  ring

/-- **C115**, at the other end: above some frequency the code applies no absorption at all. -/
theorem C115_transparent {k : Consts} {b : Blob} (hg : b.GoodGrid)
    (hp : Physical k 1 b.z b.d_L b.delta_D b.B b.R_b b.n_e) :
    ∀ᶠ nu in atTop, sedFlux k trapz true nu b.z b.d_L b.delta_D b.B b.R_b b.n_e b.gamma_e
      = sedFlux k trapz false nu b.z b.d_L b.delta_D b.B b.R_b b.n_e b.gamma_e := by
  have hk := hp.consts
  have hB := hp.B
  have hkap := nuToEps_pos hk hp.nu hp.z hp.delta
  generalize hkap' : nuToEps k 1 b.z b.delta_D = κ at hkap
  have hnu : ∀ nu, nuToEps k nu b.z b.delta_D = κ * nu := by
    intro nu
    rw [← hkap']
    unfold nuToEps
    ring
  have hS : Tendsto (fun nu => Verif.over trapz b.gamma_e fun g => b.n_e.ssa g * power k b.B (κ * nu) g k.m_e) atTop
      (𝓝 (Verif.over trapz b.gamma_e fun g => b.n_e.ssa g * (√3 * k.e ^ 3 * b.B / k.h * 0))) := by
    refine over_trapz_tendsto _ (fun g hgm => ?_)
    have hg0 := Blob.gamma_e_pos b g hgm
    have hx : Tendsto (fun nu => calcX k b.B (κ * nu) g k.m_e) atTop atTop := by
      have hc := calcX_pos hk hB hkap hk.m_e hg0
      have e : (fun nu => calcX k b.B (κ * nu) g k.m_e) = fun nu => calcX k b.B κ g k.m_e * nu := by
        funext nu
        unfold calcX
        ring
      rw [e]
      exact tendsto_id.const_mul_atTop hc
    have hR : Tendsto R atTop (𝓝 0) := by
      have h2 : Tendsto (fun x : ℝ => 2 * Real.exp (-x)) atTop (𝓝 (2 * 0)) :=
        Real.tendsto_exp_neg_atTop_nhds_zero.const_mul 2
      rw [mul_zero] at h2
      refine tendsto_of_tendsto_of_tendsto_of_le_of_le' tendsto_const_nhds h2 ?_ ?_
      · filter_upwards [eventually_ge_atTop 0] with x hx using R_nonneg hx
      · filter_upwards [eventually_ge_atTop 0] with x hx using R_le hx
    exact ((hR.comp hx).const_mul _).const_mul _
  have hε : Tendsto (fun nu : ℝ => 8 * Real.pi * k.m_e * (κ * nu) ^ 2) atTop atTop := by
    have hc : 0 < 8 * Real.pi * k.m_e := by have := hk.m_e; positivity
    exact ((tendsto_pow_atTop (by norm_num)).comp (tendsto_id.const_mul_atTop hkap)).const_mul_atTop hc
  have hτ : Tendsto (fun nu => tauSSA k trapz nu b.z b.delta_D b.B b.R_b b.n_e b.gamma_e) atTop (𝓝 0) := by
    have h1 := ((((tendsto_const_nhds (x := (-1 : ℝ))).div_atTop hε).mul_const ((k.lambda_c_e / k.c) ^ 3)).mul hS).const_mul 2
    have h2 := h1.mul_const b.R_b
    simp only [zero_mul, mul_zero] at h2
    refine h2.congr fun nu => ?_
    rw [tauSSA_sum hg, hnu]
  filter_upwards [hτ.eventually (gt_mem_nhds (show (0 : ℝ) < 1 / 1000 by norm_num))] with nu h
  unfold sedFlux
  rw [hg.afterCall]
  simp only [if_true, Bool.false_eq_true, if_false]
  have : tauToAttenuation (tauSSA k trapz nu b.z b.delta_D b.B b.R_b b.n_e b.gamma_e) = 1 := by
    unfold tauToAttenuation
    exact if_pos h
  rw [this, mul_one]

/-- hypotheses met by `demoBlob`, a power law of index 2: the temperature is between 2.5 and 250 rest energies -/
example : Physical ⟨1, 1, 1, 1, 1, 1, 1, 1, 1, 1⟩ 1 demoBlob.z demoBlob.d_L demoBlob.delta_D demoBlob.B demoBlob.R_b demoBlob.n_e
    ∧ 0 < absorbers demoBlob ∧ 10 / (2 + 2) ≤ emitters demoBlob / absorbers demoBlob
    ∧ emitters demoBlob / absorbers demoBlob ≤ 1000 / (2 + 2) :=
  ⟨demoPhysical, C115_power_law (K := 1) (p := 2) demoBlob_good rfl one_pos (by norm_num)⟩

/-- the bound at every frequency for the same blob -/
example {nu : ℝ} (hnu : 0 < nu) :
    sedFlux ⟨1, 1, 1, 1, 1, 1, 1, 1, 1, 1⟩ trapz true nu demoBlob.z demoBlob.d_L demoBlob.delta_D demoBlob.B demoBlob.R_b
      demoBlob.n_e demoBlob.gamma_e
      ≤ 10 ^ 4 * (Real.pi * 1 ^ 2 / 1 ^ 2) * ((1 + 0) / 10) ^ 3
        * (2 * (1000 / (2 + 2) * Consts.mec2 ⟨1, 1, 1, 1, 1, 1, 1, 1, 1, 1⟩) / 1 ^ 2) * nu ^ 3 :=
  C115_brightness (p := 2) demoBlob_good { demoPhysical with nu := hnu } (by norm_num)
    fun g h => (power_law_ssa (b := demoBlob) (K := 1) (p := 2) (gmin := 10) (gmax := 1000) rfl g h).ge

/-- and by a blob whose electrons rise with index 3 for the inverted case -/
example : absorbers { demoBlob with n_e := .powerLaw 1 (-3) 10 1000 } < 0
    ∧ Physical ⟨1, 1, 1, 1, 1, 1, 1, 1, 1, 1⟩ 1 0 1 10 1 1 (.powerLaw 1 (-3) 10 1000) :=
  ⟨((C115_absorbers_iff (K := 1) (p := -3) (gmin := 10) (gmax := 1000) (b := { demoBlob with n_e := .powerLaw 1 (-3) 10 1000 })
    ⟨by norm_num [Spectra.Dist.gmin], by norm_num [Spectra.Dist.gmin, Spectra.Dist.gmax], by norm_num [demoBlob]⟩ rfl one_pos).2).2
    (by norm_num),
  { demoPhysical with dist := by norm_num [Spectra.Dist.Positive] }⟩

end Verif.Synchrotron

end
