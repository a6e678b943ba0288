import Mathlib.Data.List.Sort
import Verif.Model.Targets
import Verif.Model.Geometry

/-
Model of agnpy/absorption/targets_absorption.py over the reals, for one observed frequency at a
time.  Integrals over broadcast arrays are nested `np.trapz` over the grids.
-/

noncomputable section

namespace Verif.Absorption

open MathUtils Geometry Region Targets Classical

/-- `sigma`, targets_absorption.py:34-42.  For s < 1 numpy computes NaN and then overwrites it with 0. -/
def sigma (k : Consts) (s : ℝ) : ℝ :=
  let beta_cm := √(1 - 1 / s)
  let prefactor := 3 / 16 * k.sigma_T * (1 - beta_cm ^ 2)
  let term1 := (3 - beta_cm ^ 4) * MathUtils.log ((1 + beta_cm) / (1 - beta_cm))
  let term2 := -2 * beta_cm * (2 - beta_cm ^ 2)
  let values := prefactor * (term1 + term2)
  if s < 1 then 0 else values

/-- `evaluate_tau_ps_behind_blob`, targets_absorption.py:87-118 -/
def tauPS (k : Consts) (nu z mu_s epsilon_0 L_0 r : ℝ) : ℝ :=
  let epsilon_1 := nuToEps k nu z 1
  let s := epsilon_0 * epsilon_1 * (1 - mu_s) / 2
  let integral := (1 - mu_s) * sigma k s / r
  let prefactor := L_0 / (4 * Real.pi * epsilon_0 * k.m_e * k.c ^ 3)
  prefactor * integral

/-- `evaluate_tau_ps_behind_blob_mu_s`, targets_absorption.py:127-173 -/
def tauPSMuS (k : Consts) (nu z mu_s epsilon_0 L_0 r : ℝ) (u_size : ℕ) : ℝ :=
  let epsilon_1 := nuToEps k nu z 1
  let uu := (logspace (-5) 5 u_size).map (· * r)
  let integral := over trapz uu fun u =>
    let x := √(r * r + u * u + 2 * u * r * mu_s)
    let mu := (r + u * mu_s) / x
    let cos_psi := cosPsi mu_s mu 0
    let s := epsilon_1 * epsilon_0 * (1 - cos_psi) / 2
    (1 - cos_psi) / x ^ 2 * sigma k s
  let prefactor := L_0 / (4 * Real.pi * epsilon_0 * k.m_e * k.c ^ 3)
  prefactor * integral

/-- `evaluate_tau_ss_disk`, targets_absorption.py:182-264 -/
def tauDisk (k : Consts) (nu z mu_s M_BH L_disk eta R_in R_out r : ℝ) (R_size l_size : ℕ) (phi : List ℝ) : ℝ :=
  let R_g := k.G * M_BH / k.c ^ 2
  let r_tilde := toRg k r M_BH
  let R_in_tilde := toRg k R_in M_BH
  let R_out_tilde := toRg k R_out M_BH
  let R_tilde := linspace R_in_tilde R_out_tilde R_size
  let l_tilde := (logspace 0 5 l_size).map (· * r_tilde)
  let epsilon_1 := nuToEps k nu z 1
  let integral := over trapz l_tilde fun l => over trapz phi fun phi => over trapz R_tilde fun R =>
    let epsilon := SSDisk.epsilon k L_disk M_BH eta R
    let phi_disk := 1 - (R_in_tilde / R) ^ (1 / 2 : ℝ)
    let mu := (1 + R ^ 2 / l ^ 2) ^ (-1 / 2 : ℝ)
    let cos_psi := cosPsi mu_s mu phi
    let s := epsilon * epsilon_1 * (1 - cos_psi) / 2
    1 / l ^ 2 / R ^ 2 / (1 + R ^ 2 / l ^ 2) ^ (3 / 2 : ℝ) * phi_disk / epsilon * sigma k s * (1 - cos_psi)
  let prefactor := 3 * L_disk / ((4 * Real.pi) ^ 2 * eta * k.m_e * k.c ^ 3 * R_g)
  prefactor * integral

/-- `np.isclose(a, b, rtol=min_rel_distance)`; the absolute tolerance keeps its default 1e-8 (in cm) -/
def closeTo (a b : ℝ) : Prop := |a - b| ≤ 1 / 10 ^ 8 + minRelDistance * |b|

/-- targets_absorption.py:335-338: the points on the path, the ones too close to the shell shifted -/
def guardPath (l : List ℝ) (R_line : ℝ) : List ℝ :=
  l.map fun x => if closeTo x R_line then x + minRelDistance * R_line else x

/-- `evaluate_tau_blr`, targets_absorption.py:284-353 -/
def tauBLR (k : Consts) (nu z mu_s L_disk xi_line epsilon_line R_line r : ℝ) (l_size : ℕ)
    (mu phi : List ℝ) : ℝ :=
  let epsilon_1 := nuToEps k nu z 1
  let l := guardPath ((logspace 0 5 l_size).map (· * r)) R_line
  let integral := over trapz l fun l => over trapz phi fun phi => over trapz mu fun mu =>
    let x := xReShell mu R_line l
    let mu_star := muStarShell mu R_line l
    let cos_psi := cosPsi mu_s mu_star phi
    let s := epsilon_1 * epsilon_line * (1 - cos_psi) / 2
    (1 - cos_psi) / x ^ 2 * sigma k s
  let prefactor := (L_disk * xi_line) / ((4 * Real.pi) ^ 2 * epsilon_line * k.m_e * k.c ^ 3)
  prefactor * integral

/-- targets_absorption.py:408: distance of the photon from the centre after a path `u` -/
def xCross (r u mu_s : ℝ) : ℝ := √(r ^ 2 + u ^ 2 + 2 * u * r * mu_s)

/-- targets_absorption.py:407-414: the points on an oblique path, shifted and sorted -/
def guardPathMuS (uu : List ℝ) (R_line r mu_s : ℝ) : List ℝ :=
  if ∃ u ∈ uu, closeTo (xCross r u mu_s) R_line then
    (uu.map fun u => if closeTo (xCross r u mu_s) R_line then u + minRelDistance * R_line else u).insertionSort (· ≤ ·)
  else uu

/-- `evaluate_tau_blr_mu_s`, targets_absorption.py:355-436 -/
def tauBLRMuS (k : Consts) (nu z mu_s L_disk xi_line epsilon_line R_line r : ℝ) (u_size : ℕ)
    (mu phi : List ℝ) : ℝ :=
  let epsilon_1 := nuToEps k nu z 1
  let uu := guardPathMuS ((logspace (-5) 5 u_size).map (· * r)) R_line r mu_s
  let integral := over trapz uu fun u => over trapz phi fun phi_re => over trapz mu fun mu_re =>
    let x := xReShellMuS R_line r phi_re mu_re u mu_s
    let phi_mu := phiMuReShell R_line r phi_re mu_re u mu_s
    let cos_psi := cosPsi mu_s phi_mu.2 phi_mu.1
    let s := epsilon_1 * epsilon_line * (1 - cos_psi) / 2
    (1 - cos_psi) / x ^ 2 * sigma k s
  let prefactor := (L_disk * xi_line) / ((4 * Real.pi) ^ 2 * epsilon_line * k.m_e * k.c ^ 3)
  prefactor * integral

/-- `evaluate_tau_dt`, targets_absorption.py:474-532 -/
def tauDT (k : Consts) (nu z mu_s L_disk xi_dt epsilon_dt R_dt r : ℝ) (l_size : ℕ) (phi : List ℝ) : ℝ :=
  let epsilon_1 := nuToEps k nu z 1
  let l := (logspace 0 5 l_size).map (· * r)
  let integral := over trapz l fun l => over trapz phi fun phi =>
    let x := xReRing R_dt l
    let mu := l / x
    let cos_psi := cosPsi mu_s mu phi
    let s := epsilon_1 * epsilon_dt * (1 - cos_psi) / 2
    (1 - cos_psi) / x ^ 2 * sigma k s
  let prefactor := (L_disk * xi_dt) / (8 * Real.pi ^ 2 * epsilon_dt * k.m_e * k.c ^ 3)
  prefactor * integral

/-- `evaluate_tau_dt_mu_s`, targets_absorption.py:534-597 -/
def tauDTMuS (k : Consts) (nu z mu_s L_disk xi_dt epsilon_dt R_dt r : ℝ) (u_size : ℕ) (phi_re : List ℝ) : ℝ :=
  let epsilon_1 := nuToEps k nu z 1
  let uu := (logspace (-5) 5 u_size).map (· * r)
  let integral := over trapz uu fun u => over trapz phi_re fun phi_re =>
    let x := xReRingMuS R_dt r phi_re u mu_s
    let phi_mu := phiMuReRing R_dt r phi_re u mu_s
    let cos_psi := cosPsi mu_s phi_mu.2 phi_mu.1
    let s := epsilon_1 * epsilon_dt * (1 - cos_psi) / 2
    (1 - cos_psi) / x ^ 2 * sigma k s
  let prefactor := (L_disk * xi_dt) / (8 * Real.pi ^ 2 * epsilon_dt * k.m_e * k.c ^ 3)
  prefactor * integral

/-- the synchrotron frequencies (blob frame) of `tau_on_synchrotron`, targets_absorption.py:650-663 -/
def synchFrequencies (k : Consts) (b : Blob) (nu_s_size : ℕ) (delta_margin_low : ℝ) : List ℝ :=
  let nu_s_min := Synchrotron.nuSynchPeak k b.B b.n_e.gmin k.m_e * delta_margin_low
  let nu_s_max := Synchrotron.nuSynchPeak k b.B b.n_e.gmax k.m_e * 10 ^ 2
  logspace (log10 nu_s_min) (log10 nu_s_max) nu_s_size

/-- `tau_on_synchrotron`, targets_absorption.py:629-694; the SED is that of `Synchrotron(blob, ssa=True)` with
`np.trapz` and the grid `blob.gamma_e` -/
def tauSynch (k : Consts) (b : Blob) (nu : ℝ) (nu_s_size : ℕ) (delta_margin_low : ℝ) : ℝ :=
  let epsilon1 := nuToEps k nu b.z b.delta_D
  let nu_s := synchFrequencies k b nu_s_size delta_margin_low
  let nu_s_obs := nu_s.map fun nu => nu * b.delta_D / (1 + b.z)
  let epsilon := nu_s_obs.map fun nu => nuToEps k nu b.z b.delta_D
  let sed_synch := nu_s_obs.map fun nu =>
    Synchrotron.sedFlux k trapz true nu b.z b.d_L b.delta_D b.B b.R_b b.n_e b.gamma_e
  let n_synch := List.zipWith (fun sed eps =>
    (3 * b.d_L ^ 2 * sed) / (k.c * b.R_b ^ 2 * b.delta_D ^ 4 * eps ^ 2 * k.m_e * k.c ^ 2) * (3 / 4))
    sed_synch epsilon
  let integrand := List.zipWith (fun n eps => n * sigma k (eps * epsilon1 / 2)) n_synch epsilon
  2 * b.R_b * trapz integrand epsilon

/-- the argument `target` of `Absorption` -/
inductive Target where
  | blob (b : Blob)
  | ps (t : PS)
  | disk (t : SSDisk)
  | blr (t : BLR)
  | dt (t : DT)
  /-- any other object, in particular a `CMB` -/
  | other

/-- attributes of an `Absorption` object -/
structure Abs where
  target : Target
  r : Option ℝ
  z : ℝ
  mu_s : ℝ
  mu : List ℝ
  phi : List ℝ
  l_size : ℕ

/-- `Absorption.__init__` with `set_mu`, `set_phi`, `set_l`, targets_absorption.py:59-85; `none` is the
ValueError for a missing distance -/
def new (target : Target) (r : Option ℝ) (z mu_s : ℝ) : Option Abs :=
  let a : Abs :=
    { target, r, z, mu_s, mu := linspace (-1) 1 100, phi := linspace 0 (2 * Real.pi) 50, l_size := 50 }
  match r, target with
  | none, .blob _ => some a
  | none, _ => none
  | some _, _ => some a

/-- `tau`, targets_absorption.py:696-730; `none` is Python's `None` (no branch applies).  A missing `r` with a
target other than a blob is excluded by the constructor. -/
def tau (k : Consts) (a : Abs) (nu : ℝ) : Option ℝ :=
  match a.target with
  | .blob b => some (tauSynch k b nu 200 (1 / 100))
  | t =>
    let r := a.r.getD 0
    if a.mu_s = 1 then
      match t with
      | .ps t => some (tauPS k nu a.z a.mu_s t.epsilon_0 t.L_0 r)
      | .disk t => some (tauDisk k nu a.z a.mu_s t.M_BH t.L_disk t.eta t.R_in t.R_out r 100 a.l_size a.phi)
      | .blr t =>
        some (tauBLR k nu a.z a.mu_s t.L_disk t.xi_line t.epsilon_line t.R_line r a.l_size a.mu a.phi)
      | .dt t => some (tauDT k nu a.z a.mu_s t.L_disk t.xi_dt (t.epsilon_dt k) t.R_dt r a.l_size a.phi)
      | _ => none
    else
      match t with
      | .ps t => some (tauPSMuS k nu a.z a.mu_s t.epsilon_0 t.L_0 r 100)
      | .blr t =>
        some (tauBLRMuS k nu a.z a.mu_s t.L_disk t.xi_line t.epsilon_line t.R_line r (2 * a.l_size) a.mu a.phi)
      | .dt t =>
        some (tauDTMuS k nu a.z a.mu_s t.L_disk t.xi_dt (t.epsilon_dt k) t.R_dt r (2 * a.l_size) a.phi)
      | _ => none

/-- `absorption`, targets_absorption.py:732-736; `none` is the TypeError of `-None` -/
def absorption (k : Consts) (a : Abs) (nu : ℝ) : Option ℝ := (tau k a nu).map fun t => Real.exp (-t)

/-- targets_absorption.py:747; 0/0 = NaN at t = 0 -/
def homogeneous (t : ℝ) : ℝ := (1 - Real.exp (-t)) / t

/-- `absorption_homogeneous`, targets_absorption.py:738-747 -/
def absorptionHomogeneous (k : Consts) (a : Abs) (nu : ℝ) : Option ℝ := (tau k a nu).map homogeneous

end Verif.Absorption

end
