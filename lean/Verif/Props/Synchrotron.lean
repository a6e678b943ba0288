import Mathlib.Analysis.SpecialFunctions.Integrals.Basic
import Mathlib.Analysis.Calculus.Deriv.MeanValue
import Verif.Lemmas.Radiation

/-
C42 (self-absorption factor), C51, C52, C64: the synchrotron SED.
-/

namespace Verif.Synchrotron

open MathUtils Spectra

/-! ### the attenuation functions -/

/-- average attenuation `(1 - e^{-t})/t` in a slab of depth `t` -/
noncomputable def slab (t : ℝ) : ℝ := (1 - Real.exp (-t)) / t

theorem slab_pos {t : ℝ} (h : 0 < t) : 0 < slab t := by
  unfold slab
  have : Real.exp (-t) < 1 := by rw [Real.exp_lt_one_iff]; linarith
  exact div_pos (by linarith) h

theorem slab_lt_one {t : ℝ} (h : 0 < t) : slab t < 1 := by
  unfold slab
  rw [div_lt_one h]
  have := Real.add_one_lt_exp (x := -t) (by linarith)
  linarith

theorem slab_strictAnti : StrictAntiOn slab (Set.Ioi 0) := by
  have hd : ∀ t : ℝ, 0 < t → HasDerivAt slab ((Real.exp (-t) * t - (1 - Real.exp (-t))) / t ^ 2) t := by
    intro t ht
    have h1 : HasDerivAt (fun t : ℝ => 1 - Real.exp (-t)) (Real.exp (-t)) t := by
      have := ((hasDerivAt_neg t).exp).const_sub 1
      simpa using this
    have := h1.div (hasDerivAt_id t) ht.ne'
    refine this.congr_deriv ?_
    simp
  apply strictAntiOn_of_deriv_neg (convex_Ioi 0)
  · intro t ht
    exact (hd t ht).continuousAt.continuousWithinAt
  · intro t ht
    rw [interior_Ioi] at ht
    have ht' : 0 < t := ht
    rw [(hd t ht').deriv]
    apply div_neg_of_neg_of_pos _ (by positivity)
    have h2 := Real.add_one_lt_exp (x := t) ht'.ne'
    have h3 : Real.exp (-t) * Real.exp t = 1 := by rw [← Real.exp_add]; simp
    have h4 := Real.exp_pos (-t)
    nlinarith

/-- `u(τ)` of the code is the integral over chords of a sphere -/
theorem integral_u {t : ℝ} (ht : t ≠ 0) :
    ∫ x in (0 : ℝ)..1, x * (1 - Real.exp (-(t * x)))
      = 1 / 2 + Real.exp (-t) / t - (1 - Real.exp (-t)) / t ^ 2 := by
  have hd : ∀ x ∈ Set.uIcc (0 : ℝ) 1, HasDerivAt
      (fun x : ℝ => x ^ 2 / 2 + x * Real.exp (-(t * x)) / t + Real.exp (-(t * x)) / t ^ 2)
      (x * (1 - Real.exp (-(t * x)))) x := by
    intro x _
    have he : HasDerivAt (fun x : ℝ => Real.exp (-(t * x))) (Real.exp (-(t * x)) * -t) x := by
      have h := ((hasDerivAt_id x).const_mul t).neg.exp
      simpa using h
    have h1 : HasDerivAt (fun x : ℝ => x ^ 2 / 2) x x := by
      refine ((hasDerivAt_pow 2 x).div_const 2).congr_deriv ?_
      norm_num
    have h2 := ((hasDerivAt_id x).mul he).div_const t
    have h3 := he.div_const (t ^ 2)
    refine ((h1.add h2).add h3).congr_deriv ?_
    simp only [id]
    field_simp
    ring
  rw [intervalIntegral.integral_eq_sub_of_hasDerivAt hd]
  · simp
    field_simp
    ring
  · apply Continuous.intervalIntegrable
    fun_prop

/-- C42: from `τ = 10⁻³` on the factor is the mean over the sphere of the slab attenuations: three times the
integral of `x² (1-e^{-τx})/(τx)` -/
theorem C42_ssa_mean {t : ℝ} (ht : 1 / 1000 ≤ t) :
    tauToAttenuation t = ∫ x in (0 : ℝ)..1, 3 * x ^ 2 * slab (t * x) := by
  have h0 : 0 < t := by linarith
  unfold tauToAttenuation
  dsimp only
  rw [if_neg (not_lt.2 ht), ← integral_u h0.ne', mul_div_assoc, ← intervalIntegral.integral_div,
    ← intervalIntegral.integral_const_mul]
  apply intervalIntegral.integral_congr
  intro x _
  unfold slab
  rcases eq_or_ne x 0 with rfl | hx
  · simp
  · field_simp

theorem attenuation_eq {t : ℝ} (ht : 1 / 1000 ≤ t) :
    tauToAttenuation t = ∫ x in (0 : ℝ)..1, 3 * x * ((1 - Real.exp (-(t * x))) / t) := by
  rw [C42_ssa_mean ht]
  have h0 : 0 < t := by linarith
  apply intervalIntegral.integral_congr
  intro x _
  unfold slab
  rcases eq_or_ne x 0 with rfl | hx
  · simp
  · field_simp

theorem attenuation_cont (t : ℝ) : Continuous fun x : ℝ => 3 * x * ((1 - Real.exp (-(t * x))) / t) := by
  fun_prop

theorem integrand_eq {t x : ℝ} (ht : 0 < t) (hx : 0 < x) :
    3 * x * ((1 - Real.exp (-(t * x))) / t) = 3 * x ^ 2 * slab (t * x) := by
  unfold slab
  field_simp

theorem attenuation_pos {t : ℝ} (ht : 1 / 1000 ≤ t) : 0 < tauToAttenuation t := by
  have h0 : 0 < t := by linarith
  rw [attenuation_eq ht]
  apply intervalIntegral.intervalIntegral_pos_of_pos_on ((attenuation_cont t).intervalIntegrable _ _) _ one_pos
  intro x hx
  rw [integrand_eq h0 hx.1]
  have := slab_pos (mul_pos h0 hx.1)
  have := hx.1
  positivity

theorem attenuation_strictAnti : StrictAntiOn tauToAttenuation (Set.Ici (1 / 1000)) := by
  intro s hs t ht hst
  have hs0 : 0 < s := lt_of_lt_of_le (by norm_num) hs
  have ht0 : 0 < t := hs0.trans hst
  rw [attenuation_eq hs, attenuation_eq ht]
  apply intervalIntegral.integral_lt_integral_of_continuousOn_of_le_of_exists_lt one_pos
    (attenuation_cont t).continuousOn (attenuation_cont s).continuousOn
  · intro x hx
    rw [integrand_eq hs0 hx.1, integrand_eq ht0 hx.1]
    have : slab (t * x) < slab (s * x) :=
      slab_strictAnti (mul_pos hs0 hx.1) (mul_pos ht0 hx.1) (mul_lt_mul_of_pos_right hst hx.1)
    have h3 : 0 < 3 * x ^ 2 := by have := hx.1; positivity
    exact (mul_lt_mul_of_pos_left this h3).le
  · refine ⟨1, by simp, ?_⟩
    rw [integrand_eq hs0 one_pos, integrand_eq ht0 one_pos]
    have : slab (t * 1) < slab (s * 1) :=
      slab_strictAnti (mul_pos hs0 one_pos) (mul_pos ht0 one_pos) (mul_lt_mul_of_pos_right hst one_pos)
    linarith

theorem attenuation_lt_one {t : ℝ} (ht : 1 / 1000 ≤ t) : tauToAttenuation t < 1 := by
  have h0 : 0 < t := by linarith
  rw [attenuation_eq ht]
  have h1 : ∫ x in (0 : ℝ)..1, 3 * x ^ 2 = 1 := by
    rw [intervalIntegral.integral_const_mul, integral_pow]
    norm_num
  refine lt_of_lt_of_eq ?_ h1
  apply intervalIntegral.integral_lt_integral_of_continuousOn_of_le_of_exists_lt one_pos
    (attenuation_cont t).continuousOn (by fun_prop)
  · intro x hx
    rw [integrand_eq h0 hx.1]
    have := slab_lt_one (mul_pos h0 hx.1)
    have h3 : 0 < 3 * x ^ 2 := by have := hx.1; positivity
    nlinarith
  · refine ⟨1, by simp, ?_⟩
    rw [integrand_eq h0 one_pos]
    have := slab_lt_one (mul_pos h0 one_pos)
    linarith

/-- C42: the self-absorption factor lies in (0, 1] whatever the opacity -/
theorem C42_ssa_range (t : ℝ) : tauToAttenuation t ∈ Set.Ioc 0 1 := by
  rcases lt_or_ge t (1 / 1000) with h | h
  · unfold tauToAttenuation
    dsimp only
    rw [if_pos h]
    simp
  · exact ⟨attenuation_pos h, (attenuation_lt_one h).le⟩

/-- C42: the self-absorption factor never grows with the opacity, and falls strictly from `10⁻³` on -/
theorem C42_ssa_antitone : Antitone tauToAttenuation ∧ StrictAntiOn tauToAttenuation (Set.Ici (1 / 1000)) := by
  refine ⟨?_, attenuation_strictAnti⟩
  intro s t hst
  rcases lt_or_ge s (1 / 1000) with h | h
  · have : tauToAttenuation s = 1 := by
      unfold tauToAttenuation
      dsimp only
      rw [if_pos h]
    rw [this]
    exact (C42_ssa_range t).2
  · rcases eq_or_lt_of_le hst with rfl | hlt
    · exact le_rfl
    · exact (attenuation_strictAnti h (h.trans hst) hlt).le

example : (2 : ℝ) ∈ Set.Ici (1 / 1000 : ℝ) := by norm_num

/-! ### the single-particle power -/

theorem R_nonneg {x : ℝ} (hx : 0 ≤ x) : 0 ≤ R x := by
  unfold R
  positivity

theorem R_pos {x : ℝ} (hx : 0 < x) : 0 < R x := by
  unfold R
  positivity

theorem calcX_nonneg {k : Consts} (hk : k.Pos) {B ε m : ℝ} (hB : 0 < B) (hε : 0 ≤ ε) (g : ℝ) :
    0 ≤ calcX k B ε g m := by
  unfold calcX
  have := hk.c; have := hk.e; have := hk.h
  positivity

theorem calcX_pos {k : Consts} (hk : k.Pos) {B ε m g : ℝ} (hB : 0 < B) (hε : 0 < ε) (hm : 0 < m) (hg : 0 < g) :
    0 < calcX k B ε g m := by
  unfold calcX
  have := hk.c; have := hk.e; have := hk.h
  positivity

theorem power_nonneg {k : Consts} (hk : k.Pos) {B ε : ℝ} (hB : 0 < B) (hε : 0 ≤ ε) (g m : ℝ) :
    0 ≤ power k B ε g m := by
  unfold power
  have := hk.e; have := hk.h
  have := R_nonneg (calcX_nonneg hk hB hε g (m := m))
  positivity

theorem power_pos {k : Consts} (hk : k.Pos) {B ε g m : ℝ} (hB : 0 < B) (hε : 0 < ε) (hm : 0 < m) (hg : 0 < g) :
    0 < power k B ε g m := by
  unfold power
  have := hk.e; have := hk.h
  have := R_pos (calcX_pos hk hB hε hm hg)
  positivity

theorem nuToEps_pos {k : Consts} (hk : k.Pos) {nu z δ : ℝ} (hn : 0 < nu) (hz : 0 ≤ z) (hδ : 0 < δ) :
    0 < nuToEps k nu z δ := by
  unfold nuToEps Consts.mec2
  have := hk.h; have := hk.m_e; have := hk.c
  positivity

/-! ### C51 -/

/-- the SED before self-absorption in terms of the spectrum: no array operations left -/
theorem sedThin_eq (k : Consts) (I : List ℝ → List ℝ → ℝ) (nu z d_L δ B R_b : ℝ) (d : Dist) (gamma : List ℝ) :
    sedThin k I nu z d_L δ B R_b d gamma
      = δ ^ 4 / (4 * Real.pi * d_L ^ 2) * nuToEps k nu z δ
        * over I (d.afterCall gamma) fun g => volume R_b * d.call g * power k B (nuToEps k nu z δ) g k.m_e := by
  unfold sedThin Dist.evaluate over
  simp only
  rw [List.map_map, zipWith_mul_map]
  rfl

/-- hypotheses under which the SED is meaningful: positive constants and parameters, positive spectrum -/
structure Physical (k : Consts) (nu z d_L δ B R_b : ℝ) (d : Dist) : Prop where
  consts : k.Pos
  nu : 0 < nu
  z : 0 ≤ z
  d_L : 0 < d_L
  delta : 0 < δ
  B : 0 < B
  R_b : 0 < R_b
  dist : d.Positive

/-- a set of values meeting the hypotheses -/
theorem demoPhysical : Physical ⟨1, 1, 1, 1, 1, 1, 1, 1, 1, 1⟩ 1 0 1 10 1 1 (.powerLaw 1 2 10 1000) :=
  { consts := by constructor <;> norm_num
    nu := by norm_num, z := by norm_num, d_L := by norm_num, delta := by norm_num, B := by norm_num
    R_b := by norm_num, dist := by norm_num [Dist.Positive] }

variable {k : Consts} {I : List ℝ → List ℝ → ℝ} {nu z d_L δ B R_b : ℝ} {d : Dist}

theorem thin_nonneg (hp : Physical k nu z d_L δ B R_b d) (hI : NonnegIntegrator I) {gamma : List ℝ}
    (hc : (d.afterCall gamma).IsChain (· ≤ ·)) (hg : ∀ g ∈ d.afterCall gamma, 0 < g) :
    0 ≤ sedThin k I nu z d_L δ B R_b d gamma := by
  rw [sedThin_eq]
  have he := nuToEps_pos hp.consts hp.nu hp.z hp.delta
  have h1 : 0 ≤ over I (d.afterCall gamma) fun g =>
      volume R_b * d.call g * power k B (nuToEps k nu z δ) g k.m_e := by
    apply over_nonneg hI hc hg
    intro g _
    have h1 := C23_nonneg hp.dist g
    have h2 := power_nonneg hp.consts hp.B he.le g k.m_e
    have h3 : 0 ≤ volume R_b := by unfold volume; have := hp.R_b; positivity
    positivity
  have := hp.delta; have := hp.d_L
  positivity

/-- C51: the synchrotron SED is non-negative, with or without self-absorption, for any spectrum, grid and
integrator that respects signs -/
theorem C51_nonneg (hp : Physical k nu z d_L δ B R_b d) (hI : NonnegIntegrator I) (ssa : Bool) {gamma : List ℝ}
    (hc : (d.afterCall gamma).IsChain (· ≤ ·)) (hg : ∀ g ∈ d.afterCall gamma, 0 < g) :
    0 ≤ sedFlux k I ssa nu z d_L δ B R_b d gamma := by
  have h := thin_nonneg hp hI hc hg
  unfold sedFlux
  dsimp only
  split_ifs
  · exact mul_nonneg h (C42_ssa_range _).1.le
  · exact h

/-- C51: linear in the density -/
theorem C51_linear (hI : HomogeneousIntegrator I) (c : ℝ) (gamma : List ℝ) :
    sedFlux k I false nu z d_L δ B R_b (d.scale c) gamma = c * sedFlux k I false nu z d_L δ B R_b d gamma := by
  unfold sedFlux
  simp only [Bool.false_eq_true, if_false]
  rw [sedThin_eq, sedThin_eq, Dist.scale_afterCall]
  have : (fun g => volume R_b * (d.scale c).call g * power k B (nuToEps k nu z δ) g k.m_e)
      = fun g => c * (volume R_b * d.call g * power k B (nuToEps k nu z δ) g k.m_e) := by
    funext g
    rw [Dist.scale_call]
    ring
  rw [this, over_scale hI]
  ring

/-- C51: falls with the square of the distance, with or without self-absorption -/
theorem C51_distance (ssa : Bool) (s : ℝ) (gamma : List ℝ) :
    sedFlux k I ssa nu z (s * d_L) δ B R_b d gamma = sedFlux k I ssa nu z d_L δ B R_b d gamma / s ^ 2 := by
  have h : sedThin k I nu z (s * d_L) δ B R_b d gamma = sedThin k I nu z d_L δ B R_b d gamma / s ^ 2 := by
    rw [sedThin_eq, sedThin_eq]
    rw [mul_pow]
    have : δ ^ 4 / (4 * Real.pi * (s ^ 2 * d_L ^ 2)) = δ ^ 4 / (4 * Real.pi * d_L ^ 2) / s ^ 2 := by
      rw [div_div]; ring_nf
    rw [this]
    ring
  unfold sedFlux
  dsimp only
  rw [h]
  split_ifs
  · ring
  · rfl

theorem nuToEps_boost {a : ℝ} (ha : a ≠ 0) (k : Consts) (nu z δ : ℝ) :
    nuToEps k (a * nu) z (a * δ) = nuToEps k nu z δ := by
  unfold nuToEps
  have : (1 + z) * (k.h * (a * nu) / k.mec2) = a * ((1 + z) * (k.h * nu / k.mec2)) := by ring
  rw [this, mul_div_mul_left _ _ ha]

/-- C51: with the frequency scaled like the Doppler factor, the SED goes as its fourth power, with or without
self-absorption -/
theorem C51_beaming (ssa : Bool) {a : ℝ} (ha : a ≠ 0) (gamma : List ℝ) :
    sedFlux k I ssa (a * nu) z d_L (a * δ) B R_b d gamma
      = a ^ 4 * sedFlux k I ssa nu z d_L δ B R_b d gamma := by
  have h : sedThin k I (a * nu) z d_L (a * δ) B R_b d gamma = a ^ 4 * sedThin k I nu z d_L δ B R_b d gamma := by
    rw [sedThin_eq, sedThin_eq, nuToEps_boost ha]
    ring
  have ht : ∀ g, tauSSA k I (a * nu) z (a * δ) B R_b d g = tauSSA k I nu z δ B R_b d g := by
    intro g
    unfold tauSSA
    rw [nuToEps_boost ha]
  unfold sedFlux
  dsimp only
  rw [h, ht]
  split_ifs
  · ring
  · rfl

/-- C51: the luminosity does not depend on the distance -/
theorem C51_luminosity (ssa : Bool) {d_L d_L' : ℝ} (h : d_L ≠ 0) (h' : d_L' ≠ 0) (gamma : List ℝ) :
    luminosity d_L (sedFlux k I ssa nu z d_L δ B R_b d gamma)
      = luminosity d_L' (sedFlux k I ssa nu z d_L' δ B R_b d gamma) := by
  have e : d_L = (d_L / d_L') * d_L' := by field_simp
  unfold luminosity
  rw [e, C51_distance]
  have : d_L / d_L' ≠ 0 := div_ne_zero h h'
  field_simp

/-! ### C52 -/

/-- C52: self-absorption never adds flux and never makes it negative -/
theorem C52_between (hp : Physical k nu z d_L δ B R_b d) (hI : NonnegIntegrator I) {gamma : List ℝ}
    (hc : (d.afterCall gamma).IsChain (· ≤ ·)) (hg : ∀ g ∈ d.afterCall gamma, 0 < g) :
    0 ≤ sedFlux k I true nu z d_L δ B R_b d gamma
      ∧ sedFlux k I true nu z d_L δ B R_b d gamma ≤ sedFlux k I false nu z d_L δ B R_b d gamma := by
  refine ⟨C51_nonneg hp hI true hc hg, ?_⟩
  have h := thin_nonneg hp hI hc hg
  unfold sedFlux
  simp only [if_true, Bool.false_eq_true, if_false]
  exact mul_le_of_le_one_right h (C42_ssa_range _).2

/-- spectra falling faster than `γ²`: in terms of the parameters of each family -/
def Steep : Dist → Prop
  | .powerLaw _ p _ _ => -2 ≤ p
  | .broken _ p1 p2 _ _ _ => -2 ≤ p1 ∧ -2 ≤ p2
  | .logParabola _ p q g0 a b => ∀ g, a ≤ g → g ≤ b → 0 ≤ p + 2 * q * log10 (g / g0) + 2
  | .ecpl _ p _ _ _ => -2 ≤ p
  | .ecbpl _ p1 p2 _ _ _ _ => -2 ≤ p1 ∧ -2 ≤ p2
  | .interp _ df _ a b => ∀ g, a ≤ g → g ≤ b → df (log10 g) ≤ 2
  | .empty _ _ => True

theorem ssa_nonpos (hd : d.Positive) (hs : Steep d) {g : ℝ} (hg : 0 < g) : d.ssa g ≤ 0 := by
  by_cases hb : InBounds d.gmin d.gmax g
  · cases d with
    | powerLaw k p a b =>
      simp only [Dist.gmin, Dist.gmax] at hb
      simp only [Dist.Positive] at hd
      simp only [Steep] at hs
      simp only [Dist.ssa, Dist.ssaElem, powerLawSSA]
      rw [if_pos hb]
      have h1 : 0 < g ^ (-p - 1) := by positivity
      have h2 : 0 ≤ (p + 2) * g ^ (-p - 1) := mul_nonneg (by linarith) h1.le
      have := mul_nonneg hd.1.le h2
      linarith [this]
    | broken k p1 p2 gb a b =>
      simp only [Dist.gmin, Dist.gmax] at hb
      simp only [Dist.Positive] at hd
      simp only [Steep] at hs
      simp only [Dist.ssa, Dist.ssaElem, brokenSSA]
      rw [if_pos hb]
      have h3 : -2 ≤ (if g ≤ gb then p1 else p2) := by split_ifs; exacts [hs.1, hs.2]
      generalize (if g ≤ gb then p1 else p2) = p at h3 ⊢
      have h1 : 0 < (g / gb) ^ (-p) := by have := hd.2.1; positivity
      have h2 : 0 ≤ k * (p + 2) / g * (g / gb) ^ (-p) :=
        mul_nonneg (div_nonneg (mul_nonneg hd.1.le (by linarith)) hg.le) h1.le
      have e : k * -(p + 2) / g * (g / gb) ^ (-p) = -(k * (p + 2) / g * (g / gb) ^ (-p)) := by ring
      rw [e]; linarith
    | logParabola k p q g0 a b =>
      simp only [Dist.gmin, Dist.gmax] at hb
      have hn := C23_nonneg hd g
      simp only [Steep] at hs
      simp only [Dist.ssa, Dist.ssaElem, logParabolaSSA, Dist.call] at hn ⊢
      have h1 := hs g hb.1 hb.2
      have h2 : 0 ≤ (p + 2 * q * log10 (g / g0) + 2) / g * logParabolaAt g k p q g0 a b :=
        mul_nonneg (div_nonneg h1 hg.le) hn
      have e : -(p + 2 * q * log10 (g / g0) + 2) / g * logParabolaAt g k p q g0 a b
        = -((p + 2 * q * log10 (g / g0) + 2) / g * logParabolaAt g k p q g0 a b) := by ring
      rw [e]; linarith
    | ecpl k p gc a b =>
      have hn := C23_nonneg hd g
      simp only [Steep] at hs
      simp only [Dist.Positive] at hd
      simp only [Dist.ssa, Dist.ssaElem, ecplSSA, Dist.call] at hn ⊢
      have h2 : 0 ≤ ((p + 2) / g + 1 / gc) * ecplAt g k p gc a b := by
        have := hd.2.1
        refine mul_nonneg (add_nonneg (div_nonneg (by linarith) hg.le) (by positivity)) hn
      have e : (-(p + 2) / g + -1 / gc) * ecplAt g k p gc a b = -(((p + 2) / g + 1 / gc) * ecplAt g k p gc a b) := by
        ring
      rw [e]; linarith
    | ecbpl k p1 p2 gc gb a b =>
      have hn := C23_nonneg hd g
      simp only [Dist.gmin, Dist.gmax] at hb
      simp only [Steep] at hs
      simp only [Dist.Positive] at hd
      simp only [Dist.ssa, Dist.ssaElem, ecbplSSA, Dist.call] at hn ⊢
      rw [if_pos hb]
      have h3 : -2 ≤ (if g ≤ gb then p1 else p2) := by split_ifs; exacts [hs.1, hs.2]
      generalize (if g ≤ gb then p1 else p2) = p at h3 ⊢
      have h2 : 0 ≤ ((p + 2) / g + 1 / gc) * ecbplAt g k p1 p2 gc gb a b := by
        have := hd.2.1
        refine mul_nonneg (add_nonneg (div_nonneg (by linarith) hg.le) (by positivity)) hn
      have e : (-(p + 2) / g + -1 / gc) * ecbplAt g k p1 p2 gc gb a b
        = -(((p + 2) / g + 1 / gc) * ecbplAt g k p1 p2 gc gb a b) := by ring
      rw [e]; linarith
    | interp f df norm a b =>
      have hn := C23_nonneg hd g
      simp only [Dist.gmin, Dist.gmax] at hb
      simp only [Steep] at hs
      simp only [Dist.ssa, Dist.ssaElem, interpSSA, Dist.call] at hn ⊢
      have h1 := hs g hb.1 hb.2
      have e : interpAt f g norm a b * df (log10 g) / g - 2 * interpAt f g norm a b / g
        = -((2 - df (log10 g)) * interpAt f g norm a b / g) := by ring
      rw [e, neg_nonpos]
      exact div_nonneg (mul_nonneg (by linarith) hn) hg.le
    | empty a b => exact le_rfl
  · have : g < d.gmin ∨ d.gmax < g := by
      by_contra h
      push Not at h
      exact hb ⟨h.1, h.2⟩
    exact (C24_outside d this).le

/-- C52: for spectra falling faster than `γ²` the opacity is non-negative.  The grid is the one `evaluate_sed_flux`
hands on, already adjusted by the evaluation of the spectrum. -/
theorem C52_opacity (hp : Physical k nu z d_L δ B R_b d) (hI : NonposIntegrator I) (hs : Steep d) {gamma : List ℝ}
    (hc : gamma.IsChain (· ≤ ·)) (hg : ∀ g ∈ gamma, 0 < g) (hn : NoCorrection d.gmin d.gmax gamma) :
    0 ≤ tauSSA k I nu z δ B R_b d gamma := by
  have h1 : d.afterSSA gamma = gamma := (C29_unchanged_partial d hn).2
  unfold tauSSA Dist.ssaIntegrand
  dsimp only
  rw [h1, List.zipWith_self, zipWith_mul_map]
  have he := nuToEps_pos hp.consts hp.nu hp.z hp.delta
  have hi : I (gamma.map fun g => d.ssaElem g g * power k B (nuToEps k nu z δ) g k.m_e) gamma ≤ 0 := by
    apply hI _ _ hc hg
    intro y hy
    obtain ⟨g, hgm, rfl⟩ := List.mem_map.1 hy
    have h2 := power_nonneg hp.consts hp.B he.le g k.m_e
    have h3 := ssa_nonpos hp.dist hs (hg g hgm)
    exact mul_nonpos_of_nonpos_of_nonneg h3 h2
  generalize I (gamma.map fun g => d.ssaElem g g * power k B (nuToEps k nu z δ) g k.m_e) gamma = J at hi ⊢
  generalize nuToEps k nu z δ = ε at he ⊢
  have hR := hp.R_b
  have h4 : 0 < 1 / (8 * Real.pi * k.m_e * ε ^ 2) * (k.lambda_c_e / k.c) ^ 3 := by
    unfold Consts.lambda_c_e
    have := hp.consts.m_e; have := hp.consts.c; have := hp.consts.h
    positivity
  have e : 2 * (-1 / (8 * Real.pi * k.m_e * ε ^ 2) * (k.lambda_c_e / k.c) ^ 3 * J) * R_b
      = 2 * (1 / (8 * Real.pi * k.m_e * ε ^ 2) * (k.lambda_c_e / k.c) ^ 3) * R_b * -J := by ring
  rw [e]
  have : 0 ≤ -J := by linarith
  positivity

example : Steep (.broken 1 2 3 100 10 1000) := by norm_num [Steep]

/-- without the hypothesis on the spectrum the opacity can be negative: a spectrum rising faster than `γ²` -/
theorem C52_inverted {k0 p a b : ℝ} (hp : Physical k nu z d_L δ B R_b (.powerLaw k0 p a b)) (hs : p < -2) (hab : a < b) :
    tauSSA k trapz nu z δ B R_b (.powerLaw k0 p a b) [a, b] < 0 := by
  have ha : 0 < a := hp.dist.2
  have hb : 0 < b := ha.trans hab
  have he := nuToEps_pos hp.consts hp.nu hp.z hp.delta
  have hm := hp.consts.m_e
  have s1 : ∀ g : ℝ, a ≤ g → g ≤ b → 0 < powerLawSSA g k0 p a b := by
    intro g h1 h2
    have hg : 0 < g := lt_of_lt_of_le ha h1
    unfold powerLawSSA
    rw [if_pos ⟨h1, h2⟩]
    have h3 : 0 < g ^ (-p - 1) := by positivity
    exact mul_pos hp.dist.1 (mul_pos (by linarith) h3)
  have h1 := mul_pos (s1 a le_rfl hab.le) (power_pos hp.consts hp.B he hm ha)
  have h2 := mul_pos (s1 b hab.le le_rfl) (power_pos hp.consts hp.B he hm hb)
  unfold tauSSA Dist.ssaIntegrand
  simp only [Dist.afterSSA, Dist.ssaElem, List.zipWith_cons_cons, List.zipWith_nil_left, List.map_cons, List.map_nil,
    trapz, add_zero]
  generalize powerLawSSA a k0 p a b * power k B (nuToEps k nu z δ) a k.m_e = s at h1 ⊢
  generalize powerLawSSA b k0 p a b * power k B (nuToEps k nu z δ) b k.m_e = t at h2 ⊢
  generalize nuToEps k nu z δ = ε at he ⊢
  have hR := hp.R_b
  have h4 : 0 < 1 / (8 * Real.pi * k.m_e * ε ^ 2) * (k.lambda_c_e / k.c) ^ 3 := by
    unfold Consts.lambda_c_e
    have := hp.consts.c; have := hp.consts.h
    positivity
  have h5 : 0 < b - a := sub_pos.2 hab
  have e : 2 * (-1 / (8 * Real.pi * k.m_e * ε ^ 2) * (k.lambda_c_e / k.c) ^ 3 * ((b - a) * (s + t) / 2)) * R_b
      = -(1 / (8 * Real.pi * k.m_e * ε ^ 2) * (k.lambda_c_e / k.c) ^ 3 * ((b - a) * (s + t)) * R_b) := by ring
  rw [e, neg_lt_zero]
  positivity

/-! ### the blob's own grid -/

open Region in
/-- C51 for a `Synchrotron` object built from a blob: no hypotheses on grids are left -/
theorem C51_blob_nonneg {b : Blob} (hg : b.GoodGrid)
    (hp : Physical k nu b.z b.d_L b.delta_D b.B b.R_b b.n_e) (hI : NonnegIntegrator I) (ssa : Bool) :
    0 ≤ sedFlux k I ssa nu b.z b.d_L b.delta_D b.B b.R_b b.n_e b.gamma_e :=
  C51_nonneg hp hI ssa (by rw [hg.afterCall]; exact hg.chain) (by rw [hg.afterCall]; exact b.gamma_e_pos)

open Region in
/-- C51: the SED is strictly positive, with or without self-absorption, for a non-empty spectrum -/
theorem C51_blob_pos {b : Blob} (hg : b.GoodGrid) (hn : b.n_e.NonEmpty)
    (hp : Physical k nu b.z b.d_L b.delta_D b.B b.R_b b.n_e) (ssa : Bool) :
    0 < sedFlux k trapz ssa nu b.z b.d_L b.delta_D b.B b.R_b b.n_e b.gamma_e := by
  have he := nuToEps_pos hp.consts hp.nu hp.z hp.delta
  have h : 0 < sedThin k trapz nu b.z b.d_L b.delta_D b.B b.R_b b.n_e b.gamma_e := by
    rw [sedThin_eq, hg.afterCall]
    have hi : 0 < over trapz b.gamma_e fun g =>
        volume b.R_b * b.n_e.call g * power k b.B (nuToEps k nu b.z b.delta_D) g k.m_e := by
      have hch : b.gamma_e.IsChain (· < ·) := List.isChain_iff_pairwise.2 hg.pairwise
      obtain ⟨mid, hm⟩ := hg.ends
      have hv : 0 < volume b.R_b := by unfold volume; have := hp.R_b; positivity
      rw [hm] at hch ⊢
      unfold over
      rw [List.map_cons]
      apply trapz_pos (by simp) (by simp) hch
      · exact mul_pos (mul_pos hv (C23_inside hp.dist hn le_rfl hg.lt.le))
          (power_pos hp.consts hp.B he hp.consts.m_e hg.pos)
      · intro v hvm
        obtain ⟨g, _, rfl⟩ := List.mem_map.1 hvm
        exact mul_nonneg (mul_nonneg hv.le (C23_nonneg hp.dist g)) (power_nonneg hp.consts hp.B he.le g _)
    have := hp.delta; have := hp.d_L
    positivity
  unfold sedFlux
  dsimp only
  split_ifs
  · exact mul_pos h (C42_ssa_range _).1
  · exact h

open Region in
/-- C52 for a `Synchrotron` object built from a blob -/
theorem C52_blob {b : Blob} (hg : b.GoodGrid)
    (hp : Physical k nu b.z b.d_L b.delta_D b.B b.R_b b.n_e) (hI : NonnegIntegrator I) :
    sedFlux k I true nu b.z b.d_L b.delta_D b.B b.R_b b.n_e b.gamma_e
      ≤ sedFlux k I false nu b.z b.d_L b.delta_D b.B b.R_b b.n_e b.gamma_e :=
  (C52_between hp hI (by rw [hg.afterCall]; exact hg.chain) (by rw [hg.afterCall]; exact b.gamma_e_pos)).2

open Region in
/-- a blob meeting the hypotheses -/
noncomputable def demoBlob : Blob :=
  { R_b := 1, z := 0, d_L := 1, delta_D := 10, Gamma := 10, B := 1, n_e := .powerLaw 1 2 10 1000, n_p := none, xi := 1
    gamma_e_size := 200, gamma_p_size := 200 }

theorem demoBlob_good : demoBlob.GoodGrid :=
  ⟨by norm_num [demoBlob, Dist.gmin], by norm_num [demoBlob, Dist.gmin, Dist.gmax], by norm_num [demoBlob]⟩

example : Physical ⟨1, 1, 1, 1, 1, 1, 1, 1, 1, 1⟩ 1 demoBlob.z demoBlob.d_L demoBlob.delta_D demoBlob.B demoBlob.R_b
    demoBlob.n_e := demoPhysical

/-! ### C64: protons -/

/-- C64: protons radiate like electrons with the frequency scaled down by the mass ratio and the power
by its square -/
theorem C64_proton (hk : k.Pos) (gamma : List ℝ) :
    sedFluxProton k I nu z d_L δ B R_b d gamma
      = (k.m_e / k.m_p) ^ 2 * sedFlux k I false (nu * (k.m_p / k.m_e)) z d_L δ B R_b d gamma := by
  have he := hk.m_e; have hpm := hk.m_p; have hc := hk.c
  have h1 : ∀ g, power k B (nuToEpsP k nu z δ) g k.m_p
      = power k B (nuToEps k (nu * (k.m_p / k.m_e)) z δ) g k.m_e := by
    intro g
    unfold power
    have : calcX k B (nuToEpsP k nu z δ) g k.m_p = calcX k B (nuToEps k (nu * (k.m_p / k.m_e)) z δ) g k.m_e := by
      unfold calcX nuToEps nuToEpsP Consts.mec2 Consts.mpc2
      congr 1
      field_simp
    rw [this]
  have h2 : nuToEpsP k nu z δ = (k.m_e / k.m_p) ^ 2 * nuToEps k (nu * (k.m_p / k.m_e)) z δ := by
    unfold nuToEps nuToEpsP Consts.mec2 Consts.mpc2
    field_simp
  unfold sedFlux sedFluxProton sedThin Dist.evaluate
  simp only [Bool.false_eq_true, if_false]
  simp only [h1]
  rw [h2]
  ring

end Verif.Synchrotron
