import Verif.Model.Absorption
import Verif.Model.Compton

/-
The array programs behind the SEDs and opacities: frequencies in an array of any shape, `axes_reshaper`,
broadcasting, integration along axis 0, final reshape.  The modules `Synchrotron`, `Compton`, `Absorption` and
`Targets` model the same functions for one frequency at a time.

An elementwise expression of several arrays is one `lift`: its intermediate results have shapes between those of the
operands, so they broadcast whenever the operands do.
-/

noncomputable section

namespace Verif.Batch

open MathUtils Spectra Geometry Kernels Region Targets Classical

/-! ### numpy arrays (numpy, not code of /repo) -/

/-- an array by its shape and its elements; `get` is meaningful on indices within the shape -/
structure Arr (α : Type) where
  shape : List ℕ
  get : List ℕ → α

/-- `a + 1`, `np.sqrt(a)` and the like -/
def Arr.map {α β : Type} (f : α → β) (a : Arr α) : Arr β := ⟨a.shape, fun idx => f (a.get idx)⟩

/-- the array of a model array in C order -/
def ofNd (a : NdArray ℝ) : Arr ℝ := ⟨a.shape, fun idx => (a.get? idx).getD 0⟩

/-- the elementwise function of a model array -/
def mapNd (f : ℝ → ℝ) (a : NdArray ℝ) : NdArray ℝ := ⟨a.shape, a.data.map f⟩

/-- broadcast of two shapes with the same number of axes -/
def bshapeEq : List ℕ → List ℕ → Option (List ℕ)
  | [], [] => some []
  | a :: s, b :: t => do
    let d ← bcastDim a b
    let r ← bshapeEq s t
    some (d :: r)
  | _, _ => none

/-- a shape extended with axes of length one on the left to at least `n` axes -/
def pad (n : ℕ) (s : List ℕ) : List ℕ := List.replicate (n - s.length) 1 ++ s

/-- broadcast of two shapes -/
def bshape (s t : List ℕ) : Option (List ℕ) := bshapeEq (pad t.length s) (pad s.length t)

/-- index of an operand for an index of the result: the last axes, 0 along axes of length one -/
def clamp (s idx : List ℕ) : List ℕ :=
  List.zipWith (fun d i => if d = 1 then 0 else i) s (idx.drop (idx.length - s.length))

/-- two arrays broadcast against each other; a ValueError when the shapes are incompatible -/
def Arr.zip {α β : Type} (a : Arr α) (b : Arr β) : Except Err (Arr (α × β)) :=
  match bshape a.shape b.shape with
  | none => .error .shapeError
  | some s => .ok ⟨s, fun idx => (a.get (clamp a.shape idx), b.get (clamp b.shape idx))⟩

/-- elementwise function of two arrays -/
def lift2 {α β γ : Type} (f : α → β → γ) (a : Arr α) (b : Arr β) : Except Err (Arr γ) := do
  let ab ← a.zip b
  .ok (ab.map fun x => f x.1 x.2)

/-- elementwise function of three arrays -/
def lift3 {α β γ δ : Type} (f : α → β → γ → δ) (a : Arr α) (b : Arr β) (c : Arr γ) : Except Err (Arr δ) := do
  let ab ← a.zip b
  let abc ← ab.zip c
  .ok (abc.map fun x => f x.1.1 x.1.2 x.2)

/-- elementwise function of four arrays -/
def lift4 {α β γ δ ε : Type} (f : α → β → γ → δ → ε) (a : Arr α) (b : Arr β) (c : Arr γ) (d : Arr δ) :
    Except Err (Arr ε) := do
  let ab ← a.zip b
  let abc ← ab.zip c
  let abcd ← abc.zip d
  .ok (abcd.map fun x => f x.1.1.1 x.1.1.2 x.1.2 x.2)

/-- `a *= b`: the result must have the shape of `a` -/
def imul (a b : Arr ℝ) : Except Err (Arr ℝ) := do
  let c ← lift2 (· * ·) a b
  if c.shape = a.shape then .ok c else .error .shapeError

/-- `integrator(a, x, axis=0)`: each line along axis 0 is integrated over `x`.  For lengths that differ numpy raises an
error (except that a line of two points is broadcast, which no code here uses). -/
def integrate (integrator : List ℝ → List ℝ → ℝ) (a : Arr ℝ) (x : List ℝ) : Except Err (Arr ℝ) :=
  match a.shape with
  | n :: rest =>
    if n = x.length then .ok ⟨rest, fun idx => integrator ((List.range n).map fun i => a.get (i :: idx)) x⟩
    else .error .shapeError
  | [] => .error .shapeError

/-- `np.trapz(a, x)`: the same along the last axis -/
def integrateLast (a : Arr ℝ) (x : List ℝ) : Except Err (Arr ℝ) :=
  match a.shape.getLast? with
  | some n =>
    if n = x.length then
      .ok ⟨a.shape.dropLast, fun idx => trapz ((List.range n).map fun i => a.get (idx ++ [i])) x⟩
    else .error .shapeError
  | none => .error .shapeError

/-- `np.reshape(a, shape)` of an array with one axis -/
def reshape1 (a : Arr ℝ) (shape : List ℕ) : Except Err (Arr ℝ) :=
  if a.shape = [shape.prod] then .ok ⟨shape, fun idx => a.get [(offset shape idx).getD 0]⟩
  else .error .shapeError

/-- `axes_reshaper` of two arrays, flattened -/
def axes2 (a b : List ℝ) : Except Err (NdArray ℝ × NdArray ℝ) := do
  match ← axesReshaper [a, b] with
  | [a', b'] => .ok (a', b')
  | _ => .error .shapeError

/-- `axes_reshaper` of three arrays, flattened -/
def axes3 (a b c : List ℝ) : Except Err (NdArray ℝ × NdArray ℝ × NdArray ℝ) := do
  match ← axesReshaper [a, b, c] with
  | [a', b', c'] => .ok (a', b', c')
  | _ => .error .shapeError

/-- `axes_reshaper` of four arrays, flattened -/
def axes4 (a b c d : List ℝ) : Except Err (NdArray ℝ × NdArray ℝ × NdArray ℝ × NdArray ℝ) := do
  match ← axesReshaper [a, b, c, d] with
  | [a', b', c', d'] => .ok (a', b', c', d')
  | _ => .error .shapeError

/-- `n.evaluate(gamma, *args)` for an array with several axes.  `_correct_array_boundary_values` (spectra.py:206-222)
compares `gamma[0]` and `gamma[-1]`, which must be single elements (a ValueError for ambiguous truth otherwise, also for
an `EmptyDistribution` here, which does not compare).  The arrays afterwards: `gamma` itself and the values. -/
def evaluateNd (d : Dist) (gamma : NdArray ℝ) : Except Err (NdArray ℝ × NdArray ℝ) :=
  match gamma.shape with
  | [] => .error .shapeError
  | _ :: rest =>
    if rest.prod = 1 then
      .ok (⟨gamma.shape, (d.evaluate gamma.data).1⟩, ⟨gamma.shape, (d.evaluate gamma.data).2⟩)
    else .error .shapeError

/-- `n.evaluate_SSA_integrand(gamma, *args)` likewise -/
def ssaNd (d : Dist) (gamma : NdArray ℝ) : Except Err (NdArray ℝ × NdArray ℝ) :=
  match gamma.shape with
  | [] => .error .shapeError
  | _ :: rest =>
    if rest.prod = 1 then
      .ok (⟨gamma.shape, (d.ssaIntegrand gamma.data).1⟩, ⟨gamma.shape, (d.ssaIntegrand gamma.data).2⟩)
    else .error .shapeError

/-! ### Synchrotron -/

/-- `evaluate_tau_ssa`, synchrotron.py:101-129; the second component is `gamma` afterwards -/
def tauSSA (k : Consts) (integrator : List ℝ → List ℝ → ℝ) (nu : NdArray ℝ) (z delta_D B R_b : ℝ) (n_e : Dist)
    (gamma : List ℝ) : Except Err (Arr ℝ × List ℝ) := do
  let epsilon := mapNd (nuToEps k · z delta_D) nu
  let (_gamma, _epsilon) ← axes2 gamma epsilon.data
  let (_gamma, SSA_integrand) ← ssaNd n_e _gamma
  let power ← lift2 (fun e g => Synchrotron.power k B e g k.m_e) (ofNd _epsilon) (ofNd _gamma)
  let integrand ← lift2 (· * ·) (ofNd SSA_integrand) power
  let integral ← integrate integrator integrand _gamma.data
  let k_epsilon ← lift2 (fun e j => -1 / (8 * Real.pi * k.m_e * e ^ 2) * (k.lambda_c_e / k.c) ^ 3 * j)
    (ofNd epsilon) integral
  .ok (k_epsilon.map fun x => 2 * x * R_b, _gamma.data)

/-- synchrotron.py:182-193: the SED before self-absorption; the second component is `gamma` afterwards -/
def sedThin (k : Consts) (integrator : List ℝ → List ℝ → ℝ) (nu : NdArray ℝ) (z d_L delta_D B R_b : ℝ) (n_e : Dist)
    (gamma : List ℝ) : Except Err (Arr ℝ × List ℝ) := do
  let epsilon := mapNd (nuToEps k · z delta_D) nu
  let (_gamma, _epsilon) ← axes2 gamma epsilon.data
  let V_b := Synchrotron.volume R_b
  let (_gamma, n) ← evaluateNd n_e _gamma
  let N_e := (ofNd n).map (V_b * ·)
  let power ← lift2 (fun e g => Synchrotron.power k B e g k.m_e) (ofNd _epsilon) (ofNd _gamma)
  let integrand ← lift2 (· * ·) N_e power
  let emissivity ← integrate integrator integrand _gamma.data
  let emissivity ← reshape1 emissivity epsilon.shape
  let prefactor := delta_D ^ 4 / (4 * Real.pi * d_L ^ 2)
  let sed ← lift2 (fun e j => prefactor * e * j) (ofNd epsilon) emissivity
  .ok (sed, _gamma.data)

/-- `evaluate_sed_flux`, synchrotron.py:131-211; the second component is `gamma` afterwards -/
def sedFlux (k : Consts) (integrator : List ℝ → List ℝ → ℝ) (ssa : Bool) (nu : NdArray ℝ)
    (z d_L delta_D B R_b : ℝ) (n_e : Dist) (gamma : List ℝ) : Except Err (Arr ℝ × List ℝ) := do
  let (sed, gamma) ← sedThin k integrator nu z d_L delta_D B R_b n_e gamma
  if ssa then
    let (tau, gamma) ← tauSSA k integrator nu z delta_D B R_b n_e gamma
    let attenuation := tau.map Synchrotron.tauToAttenuation
    let sed ← imul sed attenuation
    .ok (sed, gamma)
  else .ok (sed, gamma)

/-- `evaluate_sed_flux_delta_approx`, synchrotron.py:213-227: `evaluate` may overwrite the ends of `gamma_s`, and
`np.power(gamma_s, 3)` is taken afterwards.  Arrays with one axis. -/
def sedFluxDelta (k : Consts) (nu : List ℝ) (z d_L delta_D B R_b : ℝ) (n_e : Dist) : List ℝ :=
  let gamma_s := nu.map fun nu => √(nuToEps k nu z delta_D / Synchrotron.epsilonB B)
  let U_B := B ^ 2 / (8 * Real.pi)
  let V_b := Synchrotron.volume R_b
  let (gamma_s, n) := n_e.evaluate gamma_s
  let prefactor := delta_D ^ 4 * k.c * k.sigma_T * U_B / (6 * Real.pi * d_L ^ 2)
  List.zipWith (fun g n => prefactor * g ^ 3 * (V_b * n)) gamma_s n

/-- `ProtonSynchrotron.evaluate_sed_flux`, proton_synchrotron.py:69-150 (no final reshape) -/
def sedFluxProton (k : Consts) (integrator : List ℝ → List ℝ → ℝ) (nu : NdArray ℝ) (z d_L delta_D B R_b : ℝ)
    (n_p : Dist) (gamma : List ℝ) : Except Err (Arr ℝ × List ℝ) := do
  let epsilon := mapNd (nuToEpsP k · z delta_D) nu
  let (_gamma, _epsilon) ← axes2 gamma epsilon.data
  let V_b := Synchrotron.volume R_b
  let (_gamma, n) ← evaluateNd n_p _gamma
  let N_p := (ofNd n).map (V_b * ·)
  let power ← lift2 (fun e g => Synchrotron.power k B e g k.m_p) (ofNd _epsilon) (ofNd _gamma)
  let integrand ← lift2 (· * ·) N_p power
  let emissivity ← integrate integrator integrand _gamma.data
  let prefactor := delta_D ^ 4 / (4 * Real.pi * d_L ^ 2)
  let sed ← lift2 (fun e j => prefactor * e * j) (ofNd epsilon) emissivity
  .ok (sed, _gamma.data)

/-! ### SynchrotronSelfCompton -/

/-- the elements of an array with one axis -/
def Arr.list (a : Arr ℝ) : List ℝ := (List.range (a.shape.getD 0 0)).map fun i => a.get [i]

/-- an array with one axis -/
def vec (l : List ℝ) : NdArray ℝ := ⟨[l.length], l⟩

/-- `evaluate_sed_flux`, synchrotron_self_compton.py:73-158 -/
def sscSed (k : Consts) (integrator : List ℝ → List ℝ → ℝ) (ssa : Bool) (nu : NdArray ℝ) (z d_L delta_D B R_b : ℝ)
    (n_e : Dist) (gamma : List ℝ) : Except Err (Arr ℝ) := do
  let epsilon := Compton.nuToIntegrate.map (nuToEps k · z delta_D)
  let epsilon_s := mapNd (nuToEps k · z delta_D) nu
  let (sed_synch, gamma) ← sedFlux k integrator ssa (vec Compton.nuToIntegrate) z d_L delta_D B R_b n_e gamma
  let u_synch ← lift2 (fun e s => uPhSynchDiff k R_b d_L delta_D e s) (ofNd (vec epsilon)) sed_synch
  let (_gamma, _epsilon, _epsilon_s) ← axes3 gamma epsilon epsilon_s.data
  let V_b := Synchrotron.volume R_b
  let (_gamma, n) ← evaluateNd n_e _gamma
  let N_e := (ofNd n).map (V_b * ·)
  let _u_synch ← reshape1 u_synch [1, u_synch.list.length, 1]
  let kernel ← lift3 isotropicKernel (ofNd _gamma) (ofNd _epsilon) (ofNd _epsilon_s)
  let front ← lift4 (fun u e n g => u / e ^ 2 * n / g ^ 2) _u_synch (ofNd _epsilon) N_e (ofNd _gamma)
  let integrand ← lift2 (· * ·) front kernel
  let integral_gamma ← integrate integrator integrand _gamma.data
  let integral_epsilon ← integrate integrator integral_gamma epsilon
  let integral_epsilon ← reshape1 integral_epsilon epsilon_s.shape
  let emissivity ← lift2 (fun e j => 3 / 4 * k.c * k.sigma_T * e ^ 2 * j) (ofNd epsilon_s) integral_epsilon
  let prefactor := delta_D ^ 4 / (4 * Real.pi * d_L ^ 2)
  .ok (emissivity.map (prefactor * ·))

/-- `electron_energy_loss_rate`, synchrotron_self_compton.py:43-71, for an array of Lorentz factors with one axis; the
module's array of Lorentz factors for the synchrotron SED as it was before the call -/
def energyLossRate (k : Consts) (b : Blob) (gamma : List ℝ) : Except Err (Arr ℝ) := do
  let epsilon := Compton.nuToIntegrate.map (nuToEps k · b.z b.delta_D)
  let (sed, _) ← sedFlux k trapz false (vec Compton.nuToIntegrate) b.z b.d_L b.delta_D b.B b.R_b b.n_e
    Compton.gammaToIntegrate
  let u_epsilon ← lift2 (fun e s => uPhSynchDiff k b.R_b b.d_L b.delta_D e s) (ofNd (vec epsilon)) sed
  let (_gamma, _epsilon) ← axes2 gamma epsilon
  let f_KN ← lift2 (fun g e => Compton.fKN (4 * g * e)) (ofNd _gamma) (ofNd _epsilon)
  let integrand ← lift2 (· * ·) f_KN u_epsilon
  let F_KN ← integrateLast integrand epsilon
  lift2 (fun F g => 4 / 3 * k.sigma_T * k.c * F * g ^ 2) F_KN (ofNd (vec gamma))

/-! ### ExternalCompton -/

/-- external_compton.py:127-128 and the like: `V_b * n_e.evaluate(_gamma / delta_D, *args)`; the quotient is a new
array -/
def boosted (n_e : Dist) (R_b delta_D : ℝ) (_gamma : NdArray ℝ) : Except Err (Arr ℝ) := do
  let V_b := Synchrotron.volume R_b
  let (_, n) ← evaluateNd n_e (mapNd (· / delta_D) _gamma)
  .ok ((ofNd n).map (V_b * ·))

/-- `evaluate_sed_flux_iso_mono`, external_compton.py:63-142 -/
def isoMono (k : Consts) (integrator : List ℝ → List ℝ → ℝ) (nu : NdArray ℝ)
    (z d_L delta_D mu_s R_b epsilon_0 u_0 : ℝ) (n_e : Dist) (gamma mu phi : List ℝ) : Except Err (Arr ℝ) := do
  let epsilon_s := mapNd (nuToEps k · z 1) nu
  let (_gamma, _mu, _phi, _epsilon_s) ← axes4 gamma mu phi epsilon_s.data
  let N_e ← boosted n_e R_b delta_D _gamma
  let kernel ← lift4 (fun g e m p => comptonKernel g e epsilon_0 mu_s m p) (ofNd _gamma) (ofNd _epsilon_s)
    (ofNd _mu) (ofNd _phi)
  let integrand ← lift3 (fun n g K => n / g ^ 2 * K) N_e (ofNd _gamma) kernel
  let integral_gamma ← integrate integrator integrand gamma
  let integral_mu ← integrate trapz integral_gamma mu
  let integral_phi ← integrate trapz integral_mu phi
  let prefactor_denom := 2 ^ 7 * Real.pi ^ 2 * d_L ^ 2 * epsilon_0 ^ 2
  lift2 (fun e j => 3 * k.c * k.sigma_T * u_0 * e ^ 2 * delta_D ^ 3 / prefactor_denom * j) (ofNd epsilon_s)
    integral_phi

/-- `evaluate_sed_flux_ps_behind_jet`, external_compton.py:163-240 -/
def psBehindJet (k : Consts) (integrator : List ℝ → List ℝ → ℝ) (nu : NdArray ℝ)
    (z d_L delta_D mu_s R_b epsilon_0 L_0 r : ℝ) (n_e : Dist) (gamma : List ℝ) : Except Err (Arr ℝ) := do
  let epsilon_s := mapNd (nuToEps k · z 1) nu
  let (_gamma, _epsilon_s) ← axes2 gamma epsilon_s.data
  let N_e ← boosted n_e R_b delta_D _gamma
  let kernel ← lift2 (fun g e => comptonKernel g e epsilon_0 mu_s 1 0) (ofNd _gamma) (ofNd _epsilon_s)
  let integrand ← lift3 (fun n g K => n / g ^ 2 * K) N_e (ofNd _gamma) kernel
  let integral ← integrate integrator integrand gamma
  let prefactor_denom := 2 ^ 7 * Real.pi ^ 2 * d_L ^ 2 * r ^ 2 * epsilon_0 ^ 2
  lift2 (fun e j => 3 * k.sigma_T * L_0 * e ^ 2 * delta_D ^ 3 / prefactor_denom * j) (ofNd epsilon_s) integral

/-- `evaluate_sed_flux_ss_disk`, external_compton.py:261-373 -/
def ssDisk (k : Consts) (integrator : List ℝ → List ℝ → ℝ) (nu : NdArray ℝ)
    (z d_L delta_D mu_s R_b M_BH L_disk eta R_in R_out r : ℝ) (n_e : Dist) (gamma : List ℝ) (mu_size : ℕ)
    (phi : List ℝ) : Except Err (Arr ℝ) := do
  let epsilon_s := mapNd (nuToEps k · z 1) nu
  let r_tilde := toRg k r M_BH
  let R_in_tilde := toRg k R_in M_BH
  let R_out_tilde := toRg k R_out M_BH
  let m_dot := L_disk / (eta * k.c ^ 2)
  let mu := SSDisk.muFromRTilde R_in_tilde R_out_tilde r_tilde mu_size
  let (_gamma, _mu, _phi, _epsilon_s) ← axes4 gamma mu phi epsilon_s.data
  let N_e ← boosted n_e R_b delta_D _gamma
  let epsilon := (ofNd _mu).map fun m => SSDisk.epsilonMu k L_disk M_BH eta m r_tilde
  let phi_disk := (ofNd _mu).map fun m => SSDisk.phiDiskMu m R_in_tilde r_tilde
  let em ← epsilon.zip (ofNd _mu)
  let kernel ← lift4 (fun g e em p => comptonKernel g e em.1 mu_s em.2 p) (ofNd _gamma) (ofNd _epsilon_s) em
    (ofNd _phi)
  let front ← lift3 (fun f e m => f / e ^ 2 / m / (m ^ (-2 : ℤ) - 1) ^ (3 / 2 : ℝ)) phi_disk epsilon (ofNd _mu)
  let integrand ← lift4 (fun f n g K => f * n / g ^ 2 * K) front N_e (ofNd _gamma) kernel
  let integral_gamma ← integrate integrator integrand gamma
  let integral_mu ← integrate trapz integral_gamma mu
  let integral_phi ← integrate trapz integral_mu phi
  let prefactor_denom := 2 ^ 9 * Real.pi ^ 3 * d_L ^ 2 * r ^ 3
  lift2 (fun e j => 9 * k.sigma_T * k.G * M_BH * m_dot * e ^ 2 * delta_D ^ 3 / prefactor_denom * j) (ofNd epsilon_s)
    integral_phi

/-- `evaluate_sed_flux_blr`, external_compton.py:398-490 -/
def blr (k : Consts) (integrator : List ℝ → List ℝ → ℝ) (nu : NdArray ℝ)
    (z d_L delta_D mu_s R_b L_disk xi_line epsilon_line R_line r : ℝ) (n_e : Dist) (gamma mu phi : List ℝ) :
    Except Err (Arr ℝ) := do
  let epsilon_s := mapNd (nuToEps k · z 1) nu
  let (_gamma, _mu, _phi, _epsilon_s) ← axes4 gamma mu phi epsilon_s.data
  let N_e ← boosted n_e R_b delta_D _gamma
  let x := (ofNd _mu).map fun m => xReShell m R_line r
  let mu_star := (ofNd _mu).map fun m => muStarShell m R_line r
  let kernel ← lift4 (fun g e m p => comptonKernel g e epsilon_line mu_s m p) (ofNd _gamma) (ofNd _epsilon_s)
    mu_star (ofNd _phi)
  let integrand ← lift4 (fun x n g K => 1 / x ^ 2 * n / g ^ 2 * K) x N_e (ofNd _gamma) kernel
  let integral_gamma ← integrate integrator integrand gamma
  let integral_mu ← integrate trapz integral_gamma mu
  let integral_phi ← integrate trapz integral_mu phi
  let prefactor_denom := 2 ^ 9 * Real.pi ^ 3 * d_L ^ 2 * epsilon_line ^ 2
  lift2 (fun e j => 3 * k.sigma_T * xi_line * L_disk * e ^ 2 * delta_D ^ 3 / prefactor_denom * j) (ofNd epsilon_s)
    integral_phi

/-- `evaluate_sed_flux_dt`, external_compton.py:514-600 -/
def dt (k : Consts) (integrator : List ℝ → List ℝ → ℝ) (nu : NdArray ℝ)
    (z d_L delta_D mu_s R_b L_disk xi_dt epsilon_dt R_dt r : ℝ) (n_e : Dist) (gamma phi : List ℝ) :
    Except Err (Arr ℝ) := do
  let epsilon_s := mapNd (nuToEps k · z 1) nu
  let (_gamma, _phi, _epsilon_s) ← axes3 gamma phi epsilon_s.data
  let N_e ← boosted n_e R_b delta_D _gamma
  let x_re := xReRing R_dt r
  let mu := r / x_re
  let kernel ← lift3 (fun g e p => comptonKernel g e epsilon_dt mu_s mu p) (ofNd _gamma) (ofNd _epsilon_s)
    (ofNd _phi)
  let integrand ← lift3 (fun n g K => n / g ^ 2 * K) N_e (ofNd _gamma) kernel
  let integral_gamma ← integrate integrator integrand gamma
  let integral_phi ← integrate trapz integral_gamma phi
  let prefactor_denom := 2 ^ 8 * Real.pi ^ 3 * d_L ^ 2 * x_re ^ 2 * epsilon_dt ^ 2
  lift2 (fun e j => 3 * k.sigma_T * xi_dt * L_disk * e ^ 2 * delta_D ^ 3 / prefactor_denom * j) (ofNd epsilon_s)
    integral_phi

/-! ### SSDisk -/

/-- `evaluate_multi_T_bb_sed`, targets.py:353-393 -/
def multiTbbSed (k : Consts) (nu : NdArray ℝ) (z M_BH m_dot R_in R_out d_L mu_s : ℝ) : Except Err (Arr ℝ) := do
  let nu_prime := mapNd (· * (1 + z)) nu
  let R := linspace R_in R_out 100
  let (_R, _nu) ← axes2 R nu_prime.data
  let _T := (ofNd _R).map fun R => SSDisk.T k R M_BH m_dot R_in
  let _I_nu ← lift2 (fun n T => planck k n T) (ofNd _nu) _T
  let integrand ← lift2 (fun R I => R / d_L ^ 2 * I) (ofNd _R) _I_nu
  let F_nu ← integrate trapz integrand R
  let nuF ← lift2 (fun n F => n * (2 * Real.pi * F)) (ofNd nu) F_nu
  .ok (nuF.map (mu_s * ·))

/-! ### Absorption -/

/-- `evaluate_tau_ps_behind_blob_mu_s`, targets_absorption.py:127-173 -/
def tauPSMuS (k : Consts) (nu : NdArray ℝ) (z mu_s epsilon_0 L_0 r : ℝ) (u_size : ℕ) : Except Err (Arr ℝ) := do
  let epsilon_1 := mapNd (nuToEps k · z 1) nu
  let uu := (logspace (-5) 5 u_size).map (· * r)
  let (_u, _epsilon_1) ← axes2 uu epsilon_1.data
  let x := (ofNd _u).map fun u => √(r * r + u * u + 2 * u * r * mu_s)
  let _mu ← lift2 (fun u x => (r + u * mu_s) / x) (ofNd _u) x
  let _cos_psi := _mu.map fun m => cosPsi mu_s m 0
  let s ← lift2 (fun e c => e * epsilon_0 * (1 - c) / 2) (ofNd _epsilon_1) _cos_psi
  let integrand ← lift3 (fun c x s => (1 - c) / x ^ 2 * Absorption.sigma k s) _cos_psi x s
  let integral ← integrate trapz integrand uu
  let prefactor := L_0 / (4 * Real.pi * epsilon_0 * k.m_e * k.c ^ 3)
  .ok (integral.map (prefactor * ·))

/-- `evaluate_tau_ss_disk`, targets_absorption.py:182-264 -/
def tauDisk (k : Consts) (nu : NdArray ℝ) (z mu_s M_BH L_disk eta R_in R_out r : ℝ) (R_size l_size : ℕ)
    (phi : List ℝ) : Except Err (Arr ℝ) := do
  let R_g := k.G * M_BH / k.c ^ 2
  let r_tilde := toRg k r M_BH
  let R_in_tilde := toRg k R_in M_BH
  let R_out_tilde := toRg k R_out M_BH
  let R_tilde := linspace R_in_tilde R_out_tilde R_size
  let l_tilde := (logspace 0 5 l_size).map (· * r_tilde)
  let epsilon_1 := mapNd (nuToEps k · z 1) nu
  let (_R, _phi, _l, _epsilon_1) ← axes4 R_tilde phi l_tilde epsilon_1.data
  let _epsilon := (ofNd _R).map fun R => SSDisk.epsilon k L_disk M_BH eta R
  let _phi_disk := (ofNd _R).map fun R => 1 - (R_in_tilde / R) ^ (1 / 2 : ℝ)
  let _mu ← lift2 (fun R l => (1 + R ^ 2 / l ^ 2) ^ (-1 / 2 : ℝ)) (ofNd _R) (ofNd _l)
  let _cos_psi ← lift2 (fun m p => cosPsi mu_s m p) _mu (ofNd _phi)
  let s ← lift3 (fun e e1 c => e * e1 * (1 - c) / 2) _epsilon (ofNd _epsilon_1) _cos_psi
  let front ← lift4 (fun l R f e => 1 / l ^ 2 / R ^ 2 / (1 + R ^ 2 / l ^ 2) ^ (3 / 2 : ℝ) * f / e)
    (ofNd _l) (ofNd _R) _phi_disk _epsilon
  let integrand ← lift3 (fun f s c => f * Absorption.sigma k s * (1 - c)) front s _cos_psi
  let integral_R_tilde ← integrate trapz integrand R_tilde
  let integral_phi ← integrate trapz integral_R_tilde phi
  let integral ← integrate trapz integral_phi l_tilde
  let prefactor := 3 * L_disk / ((4 * Real.pi) ^ 2 * eta * k.m_e * k.c ^ 3 * R_g)
  .ok (integral.map (prefactor * ·))

/-- `evaluate_tau_blr`, targets_absorption.py:284-353 -/
def tauBLR (k : Consts) (nu : NdArray ℝ) (z mu_s L_disk xi_line epsilon_line R_line r : ℝ) (l_size : ℕ)
    (mu phi : List ℝ) : Except Err (Arr ℝ) := do
  let epsilon_1 := mapNd (nuToEps k · z 1) nu
  let l := Absorption.guardPath ((logspace 0 5 l_size).map (· * r)) R_line
  let (_mu, _phi, _l, _epsilon_1) ← axes4 mu phi l epsilon_1.data
  let x ← lift2 (fun m l => xReShell m R_line l) (ofNd _mu) (ofNd _l)
  let _mu_star ← lift2 (fun m l => muStarShell m R_line l) (ofNd _mu) (ofNd _l)
  let _cos_psi ← lift2 (fun m p => cosPsi mu_s m p) _mu_star (ofNd _phi)
  let s ← lift2 (fun e c => e * epsilon_line * (1 - c) / 2) (ofNd _epsilon_1) _cos_psi
  let integrand ← lift3 (fun c x s => (1 - c) / x ^ 2 * Absorption.sigma k s) _cos_psi x s
  let integral_mu ← integrate trapz integrand mu
  let integral_phi ← integrate trapz integral_mu phi
  let integral ← integrate trapz integral_phi l
  let prefactor := (L_disk * xi_line) / ((4 * Real.pi) ^ 2 * epsilon_line * k.m_e * k.c ^ 3)
  .ok (integral.map (prefactor * ·))

/-- `evaluate_tau_blr_mu_s`, targets_absorption.py:355-436 -/
def tauBLRMuS (k : Consts) (nu : NdArray ℝ) (z mu_s L_disk xi_line epsilon_line R_line r : ℝ) (u_size : ℕ)
    (mu phi : List ℝ) : Except Err (Arr ℝ) := do
  let epsilon_1 := mapNd (nuToEps k · z 1) nu
  let uu := Absorption.guardPathMuS ((logspace (-5) 5 u_size).map (· * r)) R_line r mu_s
  let (_mu_re, _phi_re, _u, _epsilon_1) ← axes4 mu phi uu epsilon_1.data
  let x ← lift3 (fun p m u => xReShellMuS R_line r p m u mu_s) (ofNd _phi_re) (ofNd _mu_re) (ofNd _u)
  let phi_mu ← lift3 (fun p m u => phiMuReShell R_line r p m u mu_s) (ofNd _phi_re) (ofNd _mu_re) (ofNd _u)
  let _cos_psi := phi_mu.map fun pm => cosPsi mu_s pm.2 pm.1
  let s ← lift2 (fun e c => e * epsilon_line * (1 - c) / 2) (ofNd _epsilon_1) _cos_psi
  let integrand ← lift3 (fun c x s => (1 - c) / x ^ 2 * Absorption.sigma k s) _cos_psi x s
  let integral_mu ← integrate trapz integrand mu
  let integral_phi ← integrate trapz integral_mu phi
  let integral ← integrate trapz integral_phi uu
  let prefactor := (L_disk * xi_line) / ((4 * Real.pi) ^ 2 * epsilon_line * k.m_e * k.c ^ 3)
  .ok (integral.map (prefactor * ·))

/-- `evaluate_tau_dt`, targets_absorption.py:474-532 -/
def tauDT (k : Consts) (nu : NdArray ℝ) (z mu_s L_disk xi_dt epsilon_dt R_dt r : ℝ) (l_size : ℕ) (phi : List ℝ) :
    Except Err (Arr ℝ) := do
  let epsilon_1 := mapNd (nuToEps k · z 1) nu
  let l := (logspace 0 5 l_size).map (· * r)
  let (_phi, _l, _epsilon_1) ← axes3 phi l epsilon_1.data
  let x := (ofNd _l).map fun l => xReRing R_dt l
  let _mu ← lift2 (fun l x => l / x) (ofNd _l) x
  let _cos_psi ← lift2 (fun m p => cosPsi mu_s m p) _mu (ofNd _phi)
  let s ← lift2 (fun e c => e * epsilon_dt * (1 - c) / 2) (ofNd _epsilon_1) _cos_psi
  let integrand ← lift3 (fun c x s => (1 - c) / x ^ 2 * Absorption.sigma k s) _cos_psi x s
  let integral_phi ← integrate trapz integrand phi
  let integral ← integrate trapz integral_phi l
  let prefactor := (L_disk * xi_dt) / (8 * Real.pi ^ 2 * epsilon_dt * k.m_e * k.c ^ 3)
  .ok (integral.map (prefactor * ·))

/-- `evaluate_tau_dt_mu_s`, targets_absorption.py:534-597 -/
def tauDTMuS (k : Consts) (nu : NdArray ℝ) (z mu_s L_disk xi_dt epsilon_dt R_dt r : ℝ) (u_size : ℕ)
    (phi_re : List ℝ) : Except Err (Arr ℝ) := do
  let epsilon_1 := mapNd (nuToEps k · z 1) nu
  let uu := (logspace (-5) 5 u_size).map (· * r)
  let (_phi_re, _u, _epsilon_1) ← axes3 phi_re uu epsilon_1.data
  let x ← lift2 (fun p u => xReRingMuS R_dt r p u mu_s) (ofNd _phi_re) (ofNd _u)
  let phi_mu ← lift2 (fun p u => phiMuReRing R_dt r p u mu_s) (ofNd _phi_re) (ofNd _u)
  let _cos_psi := phi_mu.map fun pm => cosPsi mu_s pm.2 pm.1
  let s ← lift2 (fun e c => e * epsilon_dt * (1 - c) / 2) (ofNd _epsilon_1) _cos_psi
  let integrand ← lift3 (fun c x s => (1 - c) / x ^ 2 * Absorption.sigma k s) _cos_psi x s
  let integral_phi ← integrate trapz integrand phi_re
  let integral ← integrate trapz integral_phi uu
  let prefactor := (L_disk * xi_dt) / (8 * Real.pi ^ 2 * epsilon_dt * k.m_e * k.c ^ 3)
  .ok (integral.map (prefactor * ·))

/-- `tau_on_synchrotron`, targets_absorption.py:629-694 -/
def tauSynch (k : Consts) (b : Blob) (nu : NdArray ℝ) (nu_s_size : ℕ) (delta_margin_low : ℝ) :
    Except Err (Arr ℝ) := do
  let epsilon1 := mapNd (nuToEps k · b.z b.delta_D) nu
  let nu_s := Absorption.synchFrequencies k b nu_s_size delta_margin_low
  let nu_s_obs := nu_s.map fun nu => nu * b.delta_D / (1 + b.z)
  let epsilon := nu_s_obs.map fun nu => nuToEps k nu b.z b.delta_D
  let (sed_synch, _) ← sedFlux k trapz true (vec nu_s_obs) b.z b.d_L b.delta_D b.B b.R_b b.n_e b.gamma_e
  let n_synch ← lift2 (fun sed eps =>
    (3 * b.d_L ^ 2 * sed) / (k.c * b.R_b ^ 2 * b.delta_D ^ 4 * eps ^ 2 * k.m_e * k.c ^ 2) * (3 / 4))
    sed_synch (ofNd (vec epsilon))
  let (_epsilon, _epsilon1) ← axes2 epsilon epsilon1.data
  let _s ← lift2 (fun e e1 => e * e1 / 2) (ofNd _epsilon) (ofNd _epsilon1)
  -- n_synch[..., np.newaxis]
  let _n_synch ← reshape1 n_synch [n_synch.list.length, 1]
  let integrand ← lift2 (fun n s => n * Absorption.sigma k s) _n_synch _s
  let integral ← integrate trapz integrand epsilon
  .ok (integral.map (2 * b.R_b * ·))

end Verif.Batch

end
