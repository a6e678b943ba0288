import Mathlib.Analysis.SpecialFunctions.Trigonometric.Basic
import Mathlib.Analysis.SpecialFunctions.Complex.Arg
import Verif.Model.MathUtils

/- Model of agnpy/utils/geometry.py over the reals (lengths in one fixed unit). -/

noncomputable section

namespace Verif.Geometry

open Real

/-- `np.arctan2(y, x)` (numpy, not code of /repo): the argument of x + iy; numpy gives 0 (or ±π for
signed zeros) at the origin, Mathlib 0 -/
def arctan2 (y x : ℝ) : ℝ := Complex.arg ⟨x, y⟩

/-- `cos_psi`, utils/geometry.py:5-12 -/
def cosPsi (mu_s mu phi : ℝ) : ℝ :=
  let term_1 := mu * mu_s
  let term_2 := √(1 - mu ^ 2) * √(1 - mu_s ^ 2)
  let term_3 := cos phi
  term_1 + term_2 * term_3

/-- `x_re_shell`, utils/geometry.py:15-28 -/
def xReShell (mu R_re r : ℝ) : ℝ := √(R_re ^ 2 + r ^ 2 - 2 * r * R_re * mu)

/-- `mu_star_shell`, utils/geometry.py:31-50; the boolean `r > mu * R_re` counts as 1 or 0 -/
def muStarShell (mu R_re r : ℝ) : ℝ :=
  open Classical in
  let addend := (R_re / xReShell mu R_re r) ^ 2 * (1 - mu ^ 2)
  let mu_star := √(1 - addend)
  let mu_sign := ((if r > mu * R_re then 1 else 0) - 1 / 2) * 2
  mu_star * mu_sign

/-- `x_re_ring`, utils/geometry.py:53-55 -/
def xReRing (R_re r : ℝ) : ℝ := √(R_re ^ 2 + r ^ 2)

/-- `x_re_ring_mu_s`, utils/geometry.py:58-84 -/
def xReRingMuS (R_re r phi_re u mu_s : ℝ) : ℝ :=
  let sin_theta_s := √(1 - mu_s * mu_s)
  let x2 := u * u + R_re * R_re + r * r - 2 * u * R_re * sin_theta_s * cos phi_re + 2 * r * u * mu_s
  √x2

/-- `phi_mu_re_ring`, utils/geometry.py:87-114 -/
def phiMuReRing (R_re r phi_re u mu_s : ℝ) : ℝ × ℝ :=
  let sin_theta_s := √(1 - mu_s * mu_s)
  let dx := u * sin_theta_s - R_re * cos phi_re
  let dy := 0 - R_re * sin phi_re
  let dz := r + u * mu_s
  let phi := arctan2 dy dx
  let x := xReRingMuS R_re r phi_re u mu_s
  let mu := dz / x
  (phi, mu)

/-- `x_re_shell_mu_s`, utils/geometry.py:117-149 -/
def xReShellMuS (R_re r phi_re mu_re u mu_s : ℝ) : ℝ :=
  let sin_re := √(1 - mu_re * mu_re)
  let sin_s := √(1 - mu_s * mu_s)
  let x2 := R_re * R_re + u * u + r * r - 2 * R_re * u * sin_re * cos phi_re * sin_s
    - 2 * R_re * mu_re * (r + u * mu_s) + 2 * r * u * mu_s
  √x2

/-- `phi_mu_re_shell`, utils/geometry.py:152-183 -/
def phiMuReShell (R_re r phi_re mu_re u mu_s : ℝ) : ℝ × ℝ :=
  let sin_theta_s := √(1 - mu_s * mu_s)
  let sin_re := √(1 - mu_re * mu_re)
  let dx := u * sin_theta_s - R_re * sin_re * cos phi_re
  let dy := -R_re * sin_re * sin phi_re
  let dz := r + u * mu_s - R_re * mu_re
  let phi := arctan2 dy dx
  let x := xReShellMuS R_re r phi_re mu_re u mu_s
  let mu := dz / x
  (phi, mu)

end Verif.Geometry

end
