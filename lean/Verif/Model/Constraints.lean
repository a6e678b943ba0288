import Verif.Model.Targets

/- Model of agnpy/constraints/spectral_constraints.py over the reals. -/

noncomputable section

namespace Verif.Constraints

open Region Targets

/-- `gamma_max_larmor`, spectral_constraints.py:22-39 -/
def gammaMaxLarmor (k : Consts) (b : Blob) : ℝ := b.R_b * k.e * b.B / k.mec2

/-- `gamma_max_ballistic`, spectral_constraints.py:41-55 -/
def gammaMaxBallistic (k : Consts) (b : Blob) : ℝ := b.xi * gammaMaxLarmor k b

/-- `gamma_max_synch`, spectral_constraints.py:57-70 -/
def gammaMaxSynch (k : Consts) (b : Blob) : ℝ := √(6 * Real.pi * b.xi * k.e / (k.sigma_T * b.B))

/-- `gamma_max_SSC`, spectral_constraints.py:72-90 -/
def gammaMaxSSC (k : Consts) (b : Blob) : ℝ := √(3 * b.xi * k.e * b.B / (4 * k.sigma_T * b.u_ph_synch k))

/-- `gamma_max_EC_DT`, spectral_constraints.py:92-102 -/
def gammaMaxECDT (k : Consts) (b : Blob) (dt : DT) (r : ℝ) : ℝ :=
  √(3 * b.xi * k.e * b.B / (4 * k.sigma_T * dt.u k r (some b)))

/-- `gamma_break_synch`, spectral_constraints.py:104-126 -/
def gammaBreakSynch (k : Consts) (b : Blob) : ℝ := 6 * Real.pi * k.mec2 / (k.sigma_T * b.B ^ 2 * b.R_b)

/-- `gamma_break_SSC`, spectral_constraints.py:128-144 -/
def gammaBreakSSC (k : Consts) (b : Blob) : ℝ := 3 * k.mec2 / (4 * k.sigma_T * b.u_ph_synch k * b.R_b)

/-- `gamma_break_EC_DT`, spectral_constraints.py:146-157 -/
def gammaBreakECDT (k : Consts) (b : Blob) (dt : DT) (r : ℝ) : ℝ :=
  3 * k.mec2 / (4 * k.sigma_T * dt.u k r (some b) * b.R_b)

end Verif.Constraints

end
