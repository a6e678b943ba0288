import Mathlib.Analysis.InnerProductSpace.PiL2
import Mathlib.Geometry.Euclidean.Angle.Unoriented.Basic
import Mathlib.Analysis.SpecialFunctions.Trigonometric.Inverse
import Mathlib.Tactic.Linarith
import Mathlib.Tactic.FieldSimp
import Mathlib.Tactic.Ring
import Mathlib.Tactic.Positivity
import Verif.Model.Geometry

/-
C35 angle seen from the jet for a shell, C36 distances and directions, C37 reduction to the aligned case,
C38 collision angle.

The specification lives in Euclidean space: points and unit vectors are given by polar angle `θ ∈ [0, π]` and
azimuth, and the claims are about Mathlib's distance, inner product and angle.
-/

namespace Verif.Geometry

open Real

abbrev E3 := EuclideanSpace ℝ (Fin 3)

/-- the unit vector with polar angle `θ` and azimuth `φ` -/
noncomputable def unit (θ φ : ℝ) : E3 := !₂[sin θ * cos φ, sin θ * sin φ, cos θ]

/-- the jet axis -/
def ez : E3 := !₂[0, 0, 1]

/-- element of a spherical shell of radius `R` -/
noncomputable def shellPoint (R θ φ : ℝ) : E3 := R • unit θ φ

/-- element of a ring of radius `R` in the disk plane -/
noncomputable def ringPoint (R φ : ℝ) : E3 := R • unit (π / 2) φ

/-- position on the jet axis at height `r` -/
def jetPoint (r : ℝ) : E3 := r • ez

/-- position after a path `u` in the direction `θs` from height `r` -/
noncomputable def photonPoint (r u θs : ℝ) : E3 := jetPoint r + u • unit θs 0

theorem sqrt_one_sub_cos {θ : ℝ} (h : θ ∈ Set.Icc 0 π) : √(1 - cos θ * cos θ) = sin θ := by
  rw [← sq, ← sin_sq, sqrt_sq (sin_nonneg_of_mem_Icc h)]

theorem sqrt_one_sub_cos' {θ : ℝ} (h : θ ∈ Set.Icc 0 π) : √(1 - cos θ ^ 2) = sin θ := by
  rw [sq, sqrt_one_sub_cos h]

theorem dist3 (a b : E3) : dist a b = √((a 0 - b 0) ^ 2 + (a 1 - b 1) ^ 2 + (a 2 - b 2) ^ 2) := by
  rw [EuclideanSpace.dist_eq, Fin.sum_univ_three]
  simp only [dist_eq_norm, Real.norm_eq_abs, sq_abs]

theorem norm3 (a : E3) : ‖a‖ = √((a 0) ^ 2 + (a 1) ^ 2 + (a 2) ^ 2) := by
  rw [EuclideanSpace.norm_eq, Fin.sum_univ_three]
  simp only [Real.norm_eq_abs, sq_abs]

theorem inner3 (a b : E3) : inner ℝ a b = a 0 * b 0 + a 1 * b 1 + a 2 * b 2 := by
  simp only [PiLp.inner_apply, Fin.sum_univ_three, RCLike.inner_apply, conj_trivial]
  ring

@[simp] theorem unit_0 (θ φ : ℝ) : unit θ φ 0 = sin θ * cos φ := rfl
@[simp] theorem unit_1 (θ φ : ℝ) : unit θ φ 1 = sin θ * sin φ := rfl
@[simp] theorem unit_2 (θ φ : ℝ) : unit θ φ 2 = cos θ := rfl
@[simp] theorem ez_0 : ez 0 = 0 := rfl
@[simp] theorem ez_1 : ez 1 = 0 := rfl
@[simp] theorem ez_2 : ez 2 = 1 := rfl

theorem norm_unit (θ φ : ℝ) : ‖unit θ φ‖ = 1 := by
  rw [norm3]
  simp only [unit_0, unit_1, unit_2]
  have : (sin θ * cos φ) ^ 2 + (sin θ * sin φ) ^ 2 + cos θ ^ 2 = 1 := by
    have h1 := sin_sq_add_cos_sq θ
    have h2 := sin_sq_add_cos_sq φ
    calc _ = sin θ ^ 2 * (sin φ ^ 2 + cos φ ^ 2) + cos θ ^ 2 := by ring
      _ = 1 := by rw [h2, mul_one, h1]
  rw [this, sqrt_one]

theorem norm_ez : ‖ez‖ = 1 := by rw [norm3]; simp

/-! ### C38 -/

/-- C38: `cos_psi` is the cosine of the angle between the two directions -/
theorem C38_inner {θs θ : ℝ} (hs : θs ∈ Set.Icc 0 π) (h : θ ∈ Set.Icc 0 π) (φ : ℝ) :
    cosPsi (cos θs) (cos θ) φ = cos (InnerProductGeometry.angle (unit θs 0) (unit θ φ)) := by
  rw [InnerProductGeometry.cos_angle, norm_unit, norm_unit, inner3]
  unfold cosPsi
  simp only [sqrt_one_sub_cos' hs, sqrt_one_sub_cos' h, unit_0, unit_1, unit_2, sin_zero, cos_zero]
  ring

/-- C38: range -/
theorem C38_range {mu_s mu : ℝ} (hs : mu_s ∈ Set.Icc (-1) 1) (h : mu ∈ Set.Icc (-1) 1) (φ : ℝ) :
    cosPsi mu_s mu φ ∈ Set.Icc (-1) 1 := by
  rw [← cos_arccos hs.1 hs.2, ← cos_arccos h.1 h.2, C38_inner ⟨arccos_nonneg _, arccos_le_pi _⟩
    ⟨arccos_nonneg _, arccos_le_pi _⟩]
  exact ⟨neg_one_le_cos _, cos_le_one _⟩

/-- C38: symmetry -/
theorem C38_symmetric (mu_s mu φ : ℝ) : cosPsi mu_s mu φ = cosPsi mu mu_s φ := by
  unfold cosPsi; dsimp only; ring

/-- C38: along the jet (`mu_s = 1`) the collision angle is the zenith angle -/
theorem C38_aligned (mu φ : ℝ) : cosPsi 1 mu φ = mu := by
  unfold cosPsi; simp

/-! ### C36 -/

/-- C36: shell, blob on the axis -/
theorem C36_shell {θ : ℝ} (R r φ : ℝ) :
    xReShell (cos θ) R r = dist (shellPoint R θ φ) (jetPoint r) := by
  rw [dist3]
  unfold xReShell shellPoint jetPoint
  congr 1
  simp only [PiLp.smul_apply, smul_eq_mul, unit_0, unit_1, unit_2, ez_0, ez_1, ez_2]
  have h1 := sin_sq_add_cos_sq θ
  have h2 := sin_sq_add_cos_sq φ
  have : (R * (sin θ * cos φ) - r * 0) ^ 2 + (R * (sin θ * sin φ) - r * 0) ^ 2 + (R * cos θ - r * 1) ^ 2
      = R ^ 2 * (sin θ ^ 2 * (sin φ ^ 2 + cos φ ^ 2) + cos θ ^ 2) + r ^ 2 - 2 * r * R * cos θ := by ring
  rw [this, h2, mul_one, h1, mul_one]

/-- C36: ring, blob on the axis -/
theorem C36_ring (R r φ : ℝ) : xReRing R r = dist (ringPoint R φ) (jetPoint r) := by
  have := C36_shell (θ := π / 2) R r φ
  unfold ringPoint
  unfold shellPoint at this
  rw [← this]
  unfold xReRing xReShell
  rw [cos_pi_div_two]; ring_nf

/-- C36: shell, photon that left the axis -/
theorem C36_shell_mu_s {θ θs : ℝ} (h : θ ∈ Set.Icc 0 π) (hs : θs ∈ Set.Icc 0 π) (R r φ u : ℝ) :
    xReShellMuS R r φ (cos θ) u (cos θs) = dist (shellPoint R θ φ) (photonPoint r u θs) := by
  rw [dist3]
  unfold xReShellMuS shellPoint photonPoint jetPoint
  simp only [sqrt_one_sub_cos h, sqrt_one_sub_cos hs]
  congr 1
  simp only [PiLp.smul_apply, PiLp.add_apply, smul_eq_mul, unit_0, unit_1, unit_2, ez_0, ez_1, ez_2,
    sin_zero, cos_zero]
  have h1 := sin_sq_add_cos_sq θ
  have h2 := sin_sq_add_cos_sq φ
  have h3 := sin_sq_add_cos_sq θs
  have : (R * (sin θ * cos φ) - (r * 0 + u * (sin θs * 1))) ^ 2
      + (R * (sin θ * sin φ) - (r * 0 + u * (sin θs * 0))) ^ 2
      + (R * cos θ - (r * 1 + u * cos θs)) ^ 2
      = R ^ 2 * (sin θ ^ 2 * (sin φ ^ 2 + cos φ ^ 2) + cos θ ^ 2) + u ^ 2 * (sin θs ^ 2 + cos θs ^ 2) + r ^ 2
        - 2 * R * u * sin θ * cos φ * sin θs - 2 * R * cos θ * (r + u * cos θs) + 2 * r * u * cos θs := by ring
  rw [this, h2, mul_one, h1, h3]
  ring

/-- C36: ring, photon that left the axis -/
theorem C36_ring_mu_s {θs : ℝ} (hs : θs ∈ Set.Icc 0 π) (R r φ u : ℝ) :
    xReRingMuS R r φ u (cos θs) = dist (ringPoint R φ) (photonPoint r u θs) := by
  have := C36_shell_mu_s (θ := π / 2) ⟨by positivity, by linarith [pi_pos]⟩ hs R r φ u
  unfold ringPoint
  unfold shellPoint at this
  rw [← this]
  unfold xReRingMuS xReShellMuS
  simp only [cos_pi_div_two, mul_zero, sub_zero, sqrt_one]
  ring_nf

/-- a vector from its length, cosine of the polar angle and azimuth, as the code's callers use them -/
noncomputable def fromPolar (x mu φ : ℝ) : E3 := x • !₂[√(1 - mu ^ 2) * cos φ, √(1 - mu ^ 2) * sin φ, mu]

theorem polar_of_vector {dx dy dz x : ℝ} (hx : 0 < x) (h : x ^ 2 = dx ^ 2 + dy ^ 2 + dz ^ 2) :
    fromPolar x (dz / x) (arctan2 dy dx) = !₂[dx, dy, dz] := by
  have hs : √(1 - (dz / x) ^ 2) = √(dx ^ 2 + dy ^ 2) / x := by
    have : 1 - (dz / x) ^ 2 = (dx ^ 2 + dy ^ 2) / x ^ 2 := by
      field_simp; rw [h]; ring
    rw [this, sqrt_div (by positivity), sqrt_sq hx.le]
  have ha : ‖(⟨dx, dy⟩ : ℂ)‖ = √(dx ^ 2 + dy ^ 2) := by
    rw [Complex.norm_def, Complex.normSq_mk]; ring_nf
  have hc := Complex.norm_mul_cos_arg (⟨dx, dy⟩ : ℂ)
  have hn := Complex.norm_mul_sin_arg (⟨dx, dy⟩ : ℂ)
  rw [ha] at hc hn
  ext i
  unfold fromPolar
  rw [hs]
  fin_cases i
  · show x * (√(dx ^ 2 + dy ^ 2) / x * cos (arctan2 dy dx)) = dx
    rw [show x * (√(dx ^ 2 + dy ^ 2) / x * cos (arctan2 dy dx))
      = √(dx ^ 2 + dy ^ 2) * cos (arctan2 dy dx) by field_simp]
    exact hc
  · show x * (√(dx ^ 2 + dy ^ 2) / x * sin (arctan2 dy dx)) = dy
    rw [show x * (√(dx ^ 2 + dy ^ 2) / x * sin (arctan2 dy dx))
      = √(dx ^ 2 + dy ^ 2) * sin (arctan2 dy dx) by field_simp]
    exact hn
  · show x * (dz / x) = dz
    field_simp

theorem sub_eq_coords {p e : E3} : p - e = !₂[p 0 - e 0, p 1 - e 1, p 2 - e 2] := by
  ext i; fin_cases i <;> rfl

/-- C36: the direction returned for a shell element is that of the vector from the element to the photon -/
theorem C36_shell_direction {θ θs : ℝ} (h : θ ∈ Set.Icc 0 π) (hs : θs ∈ Set.Icc 0 π) (R r φ u : ℝ)
    (hne : shellPoint R θ φ ≠ photonPoint r u θs) :
    fromPolar (xReShellMuS R r φ (cos θ) u (cos θs)) (phiMuReShell R r φ (cos θ) u (cos θs)).2
        (phiMuReShell R r φ (cos θ) u (cos θs)).1
      = photonPoint r u θs - shellPoint R θ φ := by
  have e := C36_shell_mu_s h hs R r φ u
  have hx : 0 < xReShellMuS R r φ (cos θ) u (cos θs) := by rw [e]; exact dist_pos.2 hne
  have d2 : xReShellMuS R r φ (cos θ) u (cos θs) ^ 2
      = (u * sin θs - R * sin θ * cos φ) ^ 2 + (-R * sin θ * sin φ) ^ 2 + (r + u * cos θs - R * cos θ) ^ 2 := by
    rw [e, dist3, sq_sqrt (by positivity)]
    simp only [shellPoint, photonPoint, jetPoint, PiLp.smul_apply, PiLp.add_apply, smul_eq_mul, unit_0, unit_1,
      unit_2, ez_0, ez_1, ez_2, sin_zero, cos_zero]
    ring
  have key := polar_of_vector hx d2
  unfold phiMuReShell
  simp only [sqrt_one_sub_cos h, sqrt_one_sub_cos hs]
  rw [key, sub_eq_coords]
  simp only [shellPoint, photonPoint, jetPoint, PiLp.smul_apply, PiLp.add_apply, smul_eq_mul, unit_0, unit_1,
      unit_2, ez_0, ez_1, ez_2, sin_zero, cos_zero]
  congr 1
  ext i
  fin_cases i <;> simp <;> ring

/-- C36: the same for a ring -/
theorem C36_ring_direction {θs : ℝ} (hs : θs ∈ Set.Icc 0 π) (R r φ u : ℝ)
    (hne : ringPoint R φ ≠ photonPoint r u θs) :
    fromPolar (xReRingMuS R r φ u (cos θs)) (phiMuReRing R r φ u (cos θs)).2
        (phiMuReRing R r φ u (cos θs)).1
      = photonPoint r u θs - ringPoint R φ := by
  have h : π / 2 ∈ Set.Icc 0 π := ⟨by positivity, by linarith [pi_pos]⟩
  have key := C36_shell_direction h hs R r φ u hne
  have e : xReShellMuS R r φ (cos (π / 2)) u (cos θs) = xReRingMuS R r φ u (cos θs) := by
    rw [C36_shell_mu_s h hs, C36_ring_mu_s hs]; rfl
  have e2 : phiMuReShell R r φ (cos (π / 2)) u (cos θs) = phiMuReRing R r φ u (cos θs) := by
    unfold phiMuReShell phiMuReRing
    dsimp only
    rw [e]
    simp only [cos_pi_div_two, mul_zero, sub_zero, sqrt_one, mul_one, zero_sub, neg_mul]
  rw [e, e2] at key
  exact key

/-! ### C35 -/

theorem muStarShell_eq {mu R r : ℝ} (_h : mu ∈ Set.Icc (-1) 1) (hx : 0 < R ^ 2 + r ^ 2 - 2 * r * R * mu) :
    muStarShell mu R r = (r - R * mu) / xReShell mu R r := by
  have hx0 : 0 < xReShell mu R r := sqrt_pos.2 hx
  have hsq : xReShell mu R r ^ 2 = R ^ 2 + r ^ 2 - 2 * r * R * mu := sq_sqrt hx.le
  have e : 1 - (R / xReShell mu R r) ^ 2 * (1 - mu ^ 2) = ((r - R * mu) / xReShell mu R r) ^ 2 := by
    field_simp
    rw [hsq]
    ring
  unfold muStarShell
  dsimp only
  rw [e, sqrt_sq_eq_abs, abs_div, abs_of_pos hx0]
  split_ifs with hr
  · rw [abs_of_pos (by linarith [mul_comm mu R])]; ring
  · rw [abs_of_nonpos (by linarith [mul_comm mu R])]; ring

/-- C35: `mu_star_shell` is the cosine of the angle between the jet axis and the direction from the shell
element to the blob -/
theorem C35_angle {θ : ℝ} (R r φ : ℝ) (hne : shellPoint R θ φ ≠ jetPoint r) :
    muStarShell (cos θ) R r
      = cos (InnerProductGeometry.angle ez (jetPoint r - shellPoint R θ φ)) := by
  have e := C36_shell (θ := θ) R r φ
  have hx : 0 < xReShell (cos θ) R r := by rw [e]; exact dist_pos.2 hne
  rw [muStarShell_eq ⟨neg_one_le_cos _, cos_le_one _⟩ (sqrt_pos.1 hx), InnerProductGeometry.cos_angle,
    norm_ez, one_mul, ← dist_eq_norm, dist_comm, ← e, inner3]
  simp [shellPoint, jetPoint]

/-- C35: range -/
theorem C35_range {mu R r : ℝ} (h : mu ∈ Set.Icc (-1) 1) (hx : xReShell mu R r ≠ 0) :
    muStarShell mu R r ∈ Set.Icc (-1) 1 := by
  rw [← cos_arccos h.1 h.2] at hx ⊢
  have hne : shellPoint R (arccos mu) 0 ≠ jetPoint r := by
    intro hh
    apply hx
    rw [C36_shell R r 0, hh, dist_self]
  rw [C35_angle R r 0 hne]
  exact ⟨neg_one_le_cos _, cos_le_one _⟩

example : muStarShell 0 1 1 = 1 / √2 := by
  rw [muStarShell_eq ⟨by norm_num, by norm_num⟩ (by norm_num)]
  unfold xReShell; norm_num

/-- a blob below the shell element sees it at a negative cosine -/
example : muStarShell 1 2 1 = -1 := by
  have : (2 : ℝ) ^ 2 + 1 ^ 2 - 2 * 1 * 2 * 1 = 1 := by norm_num
  rw [muStarShell_eq ⟨by norm_num, by norm_num⟩ (by norm_num)]
  unfold xReShell; rw [this, sqrt_one]; norm_num

/-! ### C37 -/

/-- C37: a photon that moved `u` along the axis is an on-axis photon at `r + u` (ring) -/
theorem C37_ring (R r φ u : ℝ) : xReRingMuS R r φ u 1 = xReRing R (r + u) := by
  unfold xReRingMuS xReRing
  simp only [mul_one, sub_self, sqrt_zero, mul_zero, zero_mul, sub_zero]
  congr 1; ring

theorem C37_ring_mu (R r φ u : ℝ) : (phiMuReRing R r φ u 1).2 = (r + u) / xReRing R (r + u) := by
  unfold phiMuReRing
  simp only [C37_ring, mul_one]

/-- C37: shell distance -/
theorem C37_shell (mu R r φ u : ℝ) : xReShellMuS R r φ mu u 1 = xReShell mu R (r + u) := by
  unfold xReShellMuS xReShell
  simp only [mul_one, sub_self, sqrt_zero, mul_zero, sub_zero]
  congr 1; ring

/-- C37: shell angle -/
theorem C37_shell_mu {mu R r : ℝ} (φ u : ℝ) (h : mu ∈ Set.Icc (-1) 1) (hx : xReShell mu R (r + u) ≠ 0) :
    (phiMuReShell R r φ mu u 1).2 = muStarShell mu R (r + u) := by
  have hpos : 0 < R ^ 2 + (r + u) ^ 2 - 2 * (r + u) * R * mu :=
    sqrt_pos.1 (lt_of_le_of_ne (sqrt_nonneg _) (Ne.symm hx))
  rw [muStarShell_eq h hpos]
  unfold phiMuReShell
  simp only [C37_shell, mul_one]

example : xReShellMuS 2 1 (π / 3) 0 1 1 = √8 := by
  rw [C37_shell]; unfold xReShell; norm_num

end Verif.Geometry
