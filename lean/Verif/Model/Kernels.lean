import Mathlib.Order.WithBot
import Verif.Model.Geometry

/- Model of agnpy/compton/kernels.py over the reals. -/

noncomputable section

namespace Verif.Kernels

open MathUtils Geometry Classical

/-- `F_c`, compton/kernels.py:9-14 -/
def Fc (q gamma_e : ℝ) : ℝ :=
  let term_1 := 2 * q * MathUtils.log q
  let term_2 := (1 + 2 * q) * (1 - q)
  let term_3 := 1 / 2 * (gamma_e * q) ^ 2 / (1 + gamma_e * q) * (1 - q)
  term_1 + term_2 + term_3

/-- `isotropic_kernel`, compton/kernels.py:17-33.  For `epsilon_s = gamma` numpy has q = inf and the
kernel 0; here q = 0 and the kernel is 0 too. -/
def isotropicKernel (gamma epsilon epsilon_s : ℝ) : ℝ :=
  let gamma_e := 4 * gamma * epsilon
  let q := (epsilon_s / gamma) / (gamma_e * (1 - epsilon_s / gamma))
  let q_min := 1 / (4 * gamma ^ 2)
  if q_min ≤ q ∧ q ≤ 1 then Fc q gamma_e else 0

/-- `get_gamma_min`, compton/kernels.py:36-40; a zero divisor gives inf in numpy, `⊤` here -/
def getGammaMin (epsilon_s epsilon mu_s mu phi : ℝ) : WithTop ℝ :=
  let d := epsilon * epsilon_s * (1 - cosPsi mu_s mu phi)
  if d = 0 then ⊤
  else
    let sqrt_term := √(1 + 2 / d)
    ((epsilon_s / 2 * (1 + sqrt_term) : ℝ) : WithTop ℝ)

/-- `compton_kernel`, compton/kernels.py:43-68 -/
def comptonKernel (gamma epsilon_s epsilon mu_s mu phi : ℝ) : ℝ :=
  let epsilon_bar := gamma * epsilon * (1 - cosPsi mu_s mu phi)
  let y := 1 - epsilon_s / gamma
  let y_1 := -(2 * epsilon_s) / (gamma * epsilon_bar * y)
  let y_2 := epsilon_s ^ 2 / (gamma * epsilon_bar * y) ^ 2
  let gamma_min := getGammaMin epsilon_s epsilon mu_s mu phi
  if gamma_min ≤ (gamma : WithTop ℝ) then y + 1 / y + y_1 + y_2 else 0

end Verif.Kernels

end
