import Verif.Model.MathUtils

/-
Model of agnpy/utils/conversion.py, and the physical constants the package takes from
`astropy.constants`.  All quantities are numerical values in Gaussian cgs units; the unit
conversions made by astropy are not modelled.
-/

noncomputable section

namespace Verif

/-- the constants of `astropy.constants` used by the package, in Gaussian cgs units; their values are
left open, the theorems only use that they are positive -/
structure Consts where
  c : ℝ
  m_e : ℝ
  m_p : ℝ
  h : ℝ
  e : ℝ
  sigma_T : ℝ
  G : ℝ
  k_B : ℝ
  sigma_sb : ℝ
  M_sun : ℝ

namespace Consts

/-- all constants are positive -/
structure Pos (k : Consts) : Prop where
  c : 0 < k.c
  m_e : 0 < k.m_e
  m_p : 0 < k.m_p
  h : 0 < k.h
  e : 0 < k.e
  sigma_T : 0 < k.sigma_T
  G : 0 < k.G
  k_B : 0 < k.k_B
  sigma_sb : 0 < k.sigma_sb
  M_sun : 0 < k.M_sun

/-- utils/conversion.py:6 -/
def mec2 (k : Consts) : ℝ := k.m_e * k.c ^ 2

/-- utils/conversion.py:7 -/
def mpc2 (k : Consts) : ℝ := k.m_p * k.c ^ 2

/-- utils/conversion.py:8 -/
def lambda_c_e (k : Consts) : ℝ := k.h / (k.m_e * k.c)

end Consts

/-- the argument `m` of `epsilon_equivalency`; the code compares it with `m_e` and `m_p` -/
inductive Mass where
  | electron
  | proton
  | other
  deriving DecidableEq

/-- value of the mass -/
def Mass.value (k : Consts) : Mass → ℝ
  | .electron => k.m_e
  | .proton => k.m_p
  | .other => 0

/-- utils/conversion.py:14-27 `epsilon_equivalency`: the function from frequency to energy; `none` is the
ValueError for a mass that is neither the electron's nor the proton's -/
def epsilonEquivalency (k : Consts) : Mass → Option (ℝ → ℝ)
  | .electron => some fun x => k.h * x / k.mec2
  | .proton => some fun x => k.h * x / k.mpc2
  | .other => none

/-- utils/conversion.py:30-35 `nu_to_epsilon_prime(nu, z, delta_D, m=m_e)` -/
def nuToEps (k : Consts) (nu z delta_D : ℝ) : ℝ := (1 + z) * (k.h * nu / k.mec2) / delta_D

/-- utils/conversion.py:30-35 `nu_to_epsilon_prime(nu, z, delta_D, m=m_p)` -/
def nuToEpsP (k : Consts) (nu z delta_D : ℝ) : ℝ := (1 + z) * (k.h * nu / k.mpc2) / delta_D

/-- utils/conversion.py:30-35 `nu_to_epsilon_prime` for any mass argument -/
def nuToEpsilonPrime (k : Consts) (nu z delta_D : ℝ) (m : Mass) : Option ℝ :=
  (epsilonEquivalency k m).map fun f => (1 + z) * f nu / delta_D

/-- utils/conversion.py:43-46 `to_R_g_units` -/
def toRg (k : Consts) (r M : ℝ) : ℝ := r / (k.G * M / k.c ^ 2)

/-- integration of a function over one axis of a broadcast array: `integrator(f(x), x, axis=...)` with
`x` reshaped by `axes_reshaper` (see C34) -/
def over (integrator : List ℝ → List ℝ → ℝ) (grid : List ℝ) (f : ℝ → ℝ) : ℝ :=
  integrator (grid.map f) grid

end Verif

end
