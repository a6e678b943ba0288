import Mathlib.Analysis.SpecialFunctions.Trigonometric.Inverse
import Verif.Model.Synchrotron

/- Model of agnpy/emission_regions/blob.py over the reals. -/

noncomputable section

namespace Verif.Region

open MathUtils Spectra Classical

/-- attributes of a `Blob`, blob.py:76-90.  `d_L` is the distance astropy computes from `z` (blob.py:79, not
modelled: an attribute of its own). -/
structure Blob where
  R_b : ℝ
  z : ℝ
  d_L : ℝ
  delta_D : ℝ
  Gamma : ℝ
  B : ℝ
  n_e : Dist
  n_p : Option Dist
  xi : ℝ
  gamma_e_size : ℕ
  gamma_p_size : ℕ

/-- failures: ValueError of the constructor, AttributeError of the proton properties -/
inductive BlobErr where
  | valueError
  | attributeError
  deriving DecidableEq

/-- `Blob.__init__`, blob.py:61-90, for a number `delta_D` -/
def mk (b : Blob) : Except BlobErr Blob := if b.delta_D ≤ 0 then .error .valueError else .ok b

namespace Blob

/-- blob.py:93-95 -/
def V_b (b : Blob) : ℝ := 4 / 3 * Real.pi * b.R_b ^ 3

/-- blob.py:98-102, in seconds (the code converts to days) -/
def t_var (k : Consts) (b : Blob) : ℝ := ((1 + b.z) * b.R_b) / (k.c * b.delta_D)

/-- blob.py:105-107 -/
def Beta (b : Blob) : ℝ := √(1 - 1 / b.Gamma ^ 2)

/-- blob.py:110-112; for `Gamma = 1` numpy divides by zero -/
def mu_s (b : Blob) : ℝ := (1 - 1 / (b.Gamma * b.delta_D)) / b.Beta

/-- blob.py:115-117 in degrees; NaN in numpy when `mu_s` is outside [-1, 1] -/
def theta_s (b : Blob) : ℝ := Real.arccos b.mu_s * 180 / Real.pi

/-- `set_delta_D`, blob.py:124-137; `theta_s` in degrees -/
def setDeltaD (b : Blob) (Gamma theta_s : ℝ) : Blob :=
  let b := { b with Gamma := Gamma }
  let mu_s := Real.cos (theta_s * Real.pi / 180)
  { b with delta_D := 1 / (b.Gamma * (1 - b.Beta * mu_s)) }

/-- blob.py:140-145 -/
def gamma_e (b : Blob) : List ℝ := logspace (log10 b.n_e.gmin) (log10 b.n_e.gmax) b.gamma_e_size

/-- blob.py:148-151 -/
def gamma_e_external_frame (b : Blob) : List ℝ := logspace 1 9 b.gamma_e_size

/-- blob.py:154-165 -/
def gamma_p (b : Blob) : Except BlobErr (List ℝ) :=
  match b.n_p with
  | some n => .ok (logspace (log10 n.gmin) (log10 n.gmax) b.gamma_p_size)
  | none => .error .attributeError

/-- the property `n_p`, blob.py:177-182 -/
def protons (b : Blob) : Except BlobErr Dist :=
  match b.n_p with
  | some n => .ok n
  | none => .error .attributeError

/-- `N_e(gamma)`, blob.py:210-219 -/
def N_e (b : Blob) (gamma : List ℝ) : List ℝ := (b.n_e.evaluate gamma).2.map (b.V_b * ·)

/-- blob.py:233-240 -/
def n_e_tot (b : Blob) : ℝ := trapz (b.n_e.evaluate b.gamma_e).2 b.gamma_e

/-- blob.py:242-249 -/
def n_p_tot (b : Blob) : Except BlobErr ℝ := do
  let n ← b.protons
  let g ← b.gamma_p
  .ok (trapz (n.evaluate g).2 g)

/-- blob.py:251-258 -/
def N_e_tot (b : Blob) : ℝ := b.V_b * b.n_e_tot

/-- blob.py:260-267 -/
def N_p_tot (b : Blob) : Except BlobErr ℝ := do
  let n ← b.n_p_tot
  .ok (b.V_b * n)

/-- blob.py:269-276; `gamma_e` is computed afresh at each use, so the factor and the abscissae are not touched
by the evaluation -/
def u_e (k : Consts) (b : Blob) : ℝ :=
  k.mec2 * trapz (List.zipWith (· * ·) b.gamma_e (b.n_e.evaluate b.gamma_e).2) b.gamma_e

/-- blob.py:278-290 -/
def u_p (k : Consts) (b : Blob) : Except BlobErr ℝ := do
  let n ← b.protons
  let g ← b.gamma_p
  .ok (k.mpc2 * trapz (List.zipWith (· * ·) g (n.evaluate g).2) g)

/-- blob.py:292-299 -/
def W_e (k : Consts) (b : Blob) : ℝ := b.V_b * b.u_e k

/-- blob.py:301-308 -/
def W_p (k : Consts) (b : Blob) : Except BlobErr ℝ := do
  let u ← b.u_p k
  .ok (b.V_b * u)

/-- blob.py:310-318 -/
def U_B (b : Blob) : ℝ := b.B ^ 2 / (8 * Real.pi)

/-- blob.py:320-327 -/
def k_eq (k : Consts) (b : Blob) : Except BlobErr ℝ :=
  match b.n_p with
  | none => .ok (b.u_e k / b.U_B)
  | some _ => do
    let u ← b.u_p k
    .ok ((b.u_e k + u) / b.U_B)

/-- blob.py:336-338 -/
def jetPrefactor (k : Consts) (b : Blob) : ℝ := 2 * Real.pi * b.R_b ^ 2 * b.Beta * b.Gamma ^ 2 * k.c

/-- blob.py:329-342 -/
def P_jet_ke (k : Consts) (b : Blob) : Except BlobErr ℝ :=
  match b.n_p with
  | none => .ok (b.jetPrefactor k * b.u_e k)
  | some _ => do
    let u ← b.u_p k
    .ok (b.jetPrefactor k * (b.u_e k + u))

/-- blob.py:344-354 -/
def P_jet_B (k : Consts) (b : Blob) : ℝ := b.jetPrefactor k * b.U_B

/-- blob.py:356-389 -/
def u_ph_synch (k : Consts) (b : Blob) : ℝ :=
  k.sigma_T * b.U_B * b.R_b
    * trapz (List.zipWith (· * ·) (b.gamma_e.map (· ^ 2)) (b.n_e.evaluate b.gamma_e).2) b.gamma_e

end Blob

/-- `evaluate_u_ph_synch_diff`, blob.py:395-404 -/
def uPhSynchDiff (k : Consts) (R_b d_L delta_D epsilon_prime sed : ℝ) : ℝ :=
  let u_synch := (3 * d_L ^ 2 * sed) / (k.c * R_b ^ 2 * delta_D ^ 4 * epsilon_prime)
  u_synch * (3 / 4)

end Verif.Region

end
