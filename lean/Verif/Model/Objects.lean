import Verif.Model.Absorption
import Verif.Model.Compton

/-
Model of agnpy's objects as Python objects: blobs, particle distributions, photon targets and radiative processes live
in a heap and refer to each other, so that several processes share a blob and two blobs may share a distribution.
Attributes computed by a constructor are stored and stay as they are until somebody assigns them; properties are
computed at every access.  The value models in Blob.lean, Targets.lean, Compton.lean and Absorption.lean compute
derived attributes on the fly instead.

Simplified: frequencies one at a time, units left out, `None` and all exceptions are `none`; only assignments to
attributes that are parameters of the constructor are modelled.
-/

noncomputable section

namespace Verif.Objects

open MathUtils Spectra Region Targets Classical

/-- attributes of a `Blob`, blob.py:76-90; the distributions are references -/
structure BlobObj where
  R_b : ℝ
  z : ℝ
  d_L : ℝ
  delta_D : ℝ
  Gamma : ℝ
  B : ℝ
  n_e : ℕ
  n_p : Option ℕ
  xi : ℝ
  gamma_e_size : ℕ
  gamma_p_size : ℕ

/-- `Blob.__init__`, blob.py:61-90: the arguments are the fields but `d_L`, which comes from the redshift
(blob.py:79, `distance` being astropy's `Distance(z).cgs` of the cosmology) -/
def BlobObj.new (distance : ℝ → ℝ) (a : BlobObj) : Option BlobObj :=
  if a.delta_D ≤ 0 then none else some { a with d_L := distance a.z }

/-- an argument that is a quantity or a bare number -/
inductive Len where
  | quantity (x : ℝ)
  | number (x : ℝ)

/-- attributes of a `SSDisk`, targets.py:241-275 -/
structure DiskObj where
  M_BH : ℝ
  M_8 : ℝ
  L_Edd : ℝ
  L_disk : ℝ
  l_Edd : ℝ
  eta : ℝ
  m_dot : ℝ
  R_g : ℝ
  R_in : ℝ
  R_out : ℝ
  R_in_tilde : ℝ
  R_out_tilde : ℝ
  R_tilde : List ℝ

/-- `SSDisk.__init__`, targets.py:240-275; `none` is the TypeError -/
def DiskObj.new (k : Consts) (M_BH L_disk eta : ℝ) (R_in R_out : Len) (R_g_units : Bool) : Option DiskObj :=
  let M_8 := M_BH / (10 ^ 8 * k.M_sun)
  let L_Edd := 126 / 100 * 10 ^ 46 * M_8
  let l_Edd := L_disk / L_Edd
  let m_dot := L_disk / (eta * k.c ^ 2)
  let R_g := k.G * M_BH / k.c ^ 2
  if R_g_units then
    match R_in, R_out with
    | .number R_in, .number R_out =>
      some { M_BH, M_8, L_Edd, L_disk, l_Edd, eta, m_dot, R_g, R_in := R_in * R_g, R_out := R_out * R_g
             R_in_tilde := R_in, R_out_tilde := R_out, R_tilde := linspace R_in R_out 50 }
    | _, _ => none
  else
    match R_in, R_out with
    | .quantity R_in, .quantity R_out =>
      some { M_BH, M_8, L_Edd, L_disk, l_Edd, eta, m_dot, R_g, R_in, R_out
             R_in_tilde := R_in / R_g, R_out_tilde := R_out / R_g
             R_tilde := linspace (R_in / R_g) (R_out / R_g) 50 }
    | _, _ => none

namespace DiskObj

/-- targets.py:332-333 -/
def epsilonMu (k : Consts) (d : DiskObj) (mu r_tilde : ℝ) : ℝ := SSDisk.epsilonMu k d.L_disk d.M_BH d.eta mu r_tilde

/-- targets.py:335-337 -/
def epsilon (k : Consts) (d : DiskObj) (R_tilde : ℝ) : ℝ := SSDisk.epsilon k d.L_disk d.M_BH d.eta R_tilde

/-- targets.py:339-340 -/
def phiDiskMu (d : DiskObj) (mu r_tilde : ℝ) : ℝ := SSDisk.phiDiskMu mu d.R_in_tilde r_tilde

/-- targets.py:342-343 -/
def phiDisk (d : DiskObj) (R_tilde : ℝ) : ℝ := 1 - √(d.R_in_tilde / R_tilde)

/-- targets.py:345-348 -/
def T (k : Consts) (d : DiskObj) (R : ℝ) : ℝ := SSDisk.T k R d.M_BH d.m_dot d.R_in

/-- targets.py:419-427; the distance comes from the argument `z` -/
def sedFlux (k : Consts) (distance : ℝ → ℝ) (d : DiskObj) (nu z mu_s : ℝ) : ℝ :=
  SSDisk.multiTNormSed k nu z d.L_disk d.M_BH d.m_dot d.R_in d.R_out (distance z) mu_s

/-- targets.py:429-466 -/
def u (k : Consts) (d : DiskObj) (r : ℝ) (blob : Option Blob) : ℝ :=
  let r_tilde := r / d.R_g
  let mu := SSDisk.muFromRTilde d.R_in_tilde d.R_out_tilde r_tilde 100
  let prefactor := 3 * d.l_Edd * d.L_Edd * d.R_g / (8 * Real.pi * k.c * d.eta * r ^ 3)
  let plain := fun mu : ℝ => 1 / mu * (mu ^ (-2 : ℤ) - 1) ^ (-3 / 2 : ℝ) * SSDisk.phiDiskMu mu d.R_in_tilde r_tilde
  let integrand := fun mu =>
    match blob with
    | some b => plain mu * SSDisk.boost b mu
    | none => plain mu
  prefactor * over trapz mu integrand

end DiskObj

/-- attributes of a `SphericalShellBLR`, targets.py:486-496 -/
structure BLRObj where
  L_disk : ℝ
  xi_line : ℝ
  line : String
  lambda_line : ℝ
  epsilon_line : ℝ
  R_line : ℝ

/-- `SphericalShellBLR.__init__`, targets.py:485-496; `none` is the NameError; wavelengths in Å -/
def BLRObj.new (k : Consts) (L_disk xi_line : ℝ) (line : String) (R_line : ℝ) : Option BLRObj :=
  match BLR.linesDictionary.lookup line with
  | none => none
  | some lambda_line =>
    some { L_disk, xi_line, line, lambda_line, R_line
           epsilon_line := k.h * k.c / (lambda_line / 10 ^ 8) / k.mec2 }

/-- attributes of a `RingDustTorus`, targets.py:565-582 -/
structure DTObj where
  L_disk : ℝ
  xi_dt : ℝ
  T_dt : ℝ
  Theta : ℝ
  epsilon_dt : ℝ
  R_dt : ℝ

/-- `RingDustTorus.__init__`, targets.py:564-582 -/
def DTObj.new (k : Consts) (L_disk xi_dt T_dt : ℝ) (R_dt : Option ℝ) : DTObj :=
  let Theta := k.k_B * T_dt / k.mec2
  { L_disk, xi_dt, T_dt, Theta, epsilon_dt := 27 / 10 * Theta, R_dt := DT.radius L_disk T_dt R_dt }

/-- the objects that scatter or absorb -/
inductive TargetObj where
  | cmb (t : CMB)
  | ps (t : PS)
  | disk (t : DiskObj)
  | blr (t : BLRObj)
  | dt (t : DTObj)

/-- the target of an `Absorption`: a photon target or a blob -/
inductive AbsRef where
  | blob (a : ℕ)
  | target (a : ℕ)

/-- attributes of an `ExternalCompton`, external_compton.py:40-69 -/
structure ECObj where
  blob : ℕ
  target : ℕ
  r : Option ℝ
  integrator : List ℝ → List ℝ → ℝ
  mu_size : ℕ
  mu : List ℝ
  phi_size : ℕ
  phi : List ℝ

/-- attributes of an `Absorption`, targets_absorption.py:60-86 -/
structure AbsObj where
  target : AbsRef
  r : Option ℝ
  z : ℝ
  mu_s : ℝ
  mu_size : ℕ
  mu : List ℝ
  phi_size : ℕ
  phi : List ℝ
  l_size : ℕ

/-- the radiative processes: Synchrotron (synchrotron.py:88-91), ProtonSynchrotron (proton_synchrotron.py:34-37),
SynchrotronSelfCompton (synchrotron_self_compton.py:32-35), ExternalCompton and Absorption -/
inductive Proc where
  | synch (blob : ℕ) (ssa : Bool) (integrator : List ℝ → List ℝ → ℝ)
  | proton (blob : ℕ) (integrator : List ℝ → List ℝ → ℝ)
  | ssc (blob : ℕ) (ssa : Bool) (integrator : List ℝ → List ℝ → ℝ)
  | ec (e : ECObj)
  | abs (a : AbsObj)

/-- all objects; references are positions -/
structure Heap where
  dists : List Dist
  blobs : List BlobObj
  targets : List TargetObj
  procs : List Proc

/-- after `import agnpy`: the default of the parameter `n_e` (blob.py:68) is one PowerLaw with its own defaults
(spectra.py:255-263), created once -/
def Heap.start : Heap := { dists := [.powerLaw (1 / 10 ^ 13) (21 / 10) 10 (10 ^ 5)], blobs := [], targets := [], procs := [] }

namespace Heap

variable (h : Heap)

/-- the blob at `a` with the distributions it refers to at this moment: `n_e` and `n_p` are properties, blob.py:166-187 -/
def blob (a : ℕ) : Option Blob := do
  let b ← h.blobs[a]?
  let n_e ← h.dists[b.n_e]?
  let n_p ← match b.n_p with
    | none => some none
    | some p => (h.dists[p]?).map some
  some { R_b := b.R_b, z := b.z, d_L := b.d_L, delta_D := b.delta_D, Gamma := b.Gamma, B := b.B, n_e, n_p, xi := b.xi
         gamma_e_size := b.gamma_e_size, gamma_p_size := b.gamma_p_size }

/-! ### `sed_flux` -/

/-- `Synchrotron.sed_flux`, synchrotron.py:229-244 -/
def sedSynch (k : Consts) (blob : ℕ) (ssa : Bool) (integrator : List ℝ → List ℝ → ℝ) (nu : ℝ) : Option ℝ := do
  let b ← h.blob blob
  some (Synchrotron.sedFlux k integrator ssa nu b.z b.d_L b.delta_D b.B b.R_b b.n_e b.gamma_e)

/-- `Synchrotron.sed_flux_delta_approx`, synchrotron.py:246-258 -/
def sedDelta (k : Consts) (blob : ℕ) (nu : ℝ) : Option ℝ := do
  let b ← h.blob blob
  some (Synchrotron.sedFluxDelta k nu b.z b.d_L b.delta_D b.B b.R_b b.n_e)

/-- `ProtonSynchrotron.sed_flux`, proton_synchrotron.py:153-168; `none` without a proton distribution -/
def sedProton (k : Consts) (blob : ℕ) (integrator : List ℝ → List ℝ → ℝ) (nu : ℝ) : Option ℝ := do
  let b ← h.blob blob
  let n_p ← b.protons.toOption
  let gamma_p ← b.gamma_p.toOption
  some (Synchrotron.sedFluxProton k integrator nu b.z b.d_L b.delta_D b.B b.R_b n_p gamma_p)

/-- `SynchrotronSelfCompton.sed_flux`, synchrotron_self_compton.py:160-175 -/
def sedSSC (k : Consts) (blob : ℕ) (ssa : Bool) (integrator : List ℝ → List ℝ → ℝ) (nu : ℝ) : Option ℝ := do
  let b ← h.blob blob
  some (Compton.sscSed k integrator ssa nu b.z b.d_L b.delta_D b.B b.R_b b.n_e b.gamma_e)

/-- `sed_flux_cmb`, external_compton.py:144-161 -/
def sedCMB (k : Consts) (e : ECObj) (t : CMB) (nu : ℝ) : Option ℝ := do
  let b ← h.blob e.blob
  some (Compton.isoMono k e.integrator nu b.z b.d_L b.delta_D b.mu_s b.R_b t.epsilon_0 t.u_0 b.n_e
    b.gamma_e_external_frame e.mu e.phi)

/-- `sed_flux_ps_behind_jet`, external_compton.py:242-259 -/
def sedPS (k : Consts) (e : ECObj) (t : PS) (nu : ℝ) : Option ℝ := do
  let b ← h.blob e.blob
  let r ← e.r
  some (Compton.psBehindJet k e.integrator nu b.z b.d_L b.delta_D b.mu_s b.R_b t.epsilon_0 t.L_0 r b.n_e
    b.gamma_e_external_frame)

/-- `sed_flux_ss_disk`, external_compton.py:375-396 -/
def sedDisk (k : Consts) (e : ECObj) (t : DiskObj) (nu : ℝ) : Option ℝ := do
  let b ← h.blob e.blob
  let r ← e.r
  some (Compton.ssDisk k e.integrator nu b.z b.d_L b.delta_D b.mu_s b.R_b t.M_BH t.L_disk t.eta t.R_in t.R_out r b.n_e
    b.gamma_e_external_frame e.mu_size e.phi)

/-- `sed_flux_blr`, external_compton.py:492-512 -/
def sedBLR (k : Consts) (e : ECObj) (t : BLRObj) (nu : ℝ) : Option ℝ := do
  let b ← h.blob e.blob
  let r ← e.r
  some (Compton.blr k e.integrator nu b.z b.d_L b.delta_D b.mu_s b.R_b t.L_disk t.xi_line t.epsilon_line t.R_line r b.n_e
    b.gamma_e_external_frame e.mu e.phi)

/-- `sed_flux_dt`, external_compton.py:602-621 -/
def sedDT (k : Consts) (e : ECObj) (t : DTObj) (nu : ℝ) : Option ℝ := do
  let b ← h.blob e.blob
  let r ← e.r
  some (Compton.dt k e.integrator nu b.z b.d_L b.delta_D b.mu_s b.R_b t.L_disk t.xi_dt t.epsilon_dt t.R_dt r b.n_e
    b.gamma_e_external_frame e.phi)

/-- `ExternalCompton.sed_flux`, external_compton.py:623-634 -/
def sedEC (k : Consts) (e : ECObj) (nu : ℝ) : Option ℝ := do
  match ← h.targets[e.target]? with
  | .cmb t => h.sedCMB k e t nu
  | .ps t => h.sedPS k e t nu
  | .disk t => h.sedDisk k e t nu
  | .blr t => h.sedBLR k e t nu
  | .dt t => h.sedDT k e t nu

/-- `Absorption.tau`, targets_absorption.py:696-730, with the methods it dispatches to: tau_ps_behind_blob (120-125),
tau_ps_behind_blob_mu_s (175-180), tau_ss_disk (266-282), tau_blr (438-454), tau_blr_mu_s (456-472), tau_dt (599-612),
tau_dt_mu_s (614-627) -/
def tau (k : Consts) (a : AbsObj) (nu : ℝ) : Option ℝ :=
  match a.target with
  | .blob b => (h.blob b).map fun b => Absorption.tauSynch k b nu 200 (1 / 100)
  | .target t => do
    let t ← h.targets[t]?
    let r ← a.r
    if a.mu_s = 1 then
      match t with
      | .ps t => some (Absorption.tauPS k nu a.z a.mu_s t.epsilon_0 t.L_0 r)
      | .disk t => some (Absorption.tauDisk k nu a.z a.mu_s t.M_BH t.L_disk t.eta t.R_in t.R_out r 100 a.l_size a.phi)
      | .blr t =>
        some (Absorption.tauBLR k nu a.z a.mu_s t.L_disk t.xi_line t.epsilon_line t.R_line r a.l_size a.mu a.phi)
      | .dt t => some (Absorption.tauDT k nu a.z a.mu_s t.L_disk t.xi_dt t.epsilon_dt t.R_dt r a.l_size a.phi)
      | .cmb _ => none
    else
      match t with
      | .ps t => some (Absorption.tauPSMuS k nu a.z a.mu_s t.epsilon_0 t.L_0 r 100)
      | .blr t =>
        some (Absorption.tauBLRMuS k nu a.z a.mu_s t.L_disk t.xi_line t.epsilon_line t.R_line r (2 * a.l_size) a.mu a.phi)
      | .dt t =>
        some (Absorption.tauDTMuS k nu a.z a.mu_s t.L_disk t.xi_dt t.epsilon_dt t.R_dt r (2 * a.l_size) a.phi)
      | .disk _ => none
      | .cmb _ => none

/-- what the process at `p` says about the frequency `nu`: its `sed_flux`, or `tau` of an `Absorption` -/
def ask (k : Consts) (p : ℕ) (nu : ℝ) : Option ℝ := do
  match ← h.procs[p]? with
  | .synch b ssa I => h.sedSynch k b ssa I nu
  | .proton b I => h.sedProton k b I nu
  | .ssc b ssa I => h.sedSSC k b ssa I nu
  | .ec e => h.sedEC k e nu
  | .abs a => h.tau k a nu

/-- the blob of a process that emits -/
def _root_.Verif.Objects.Proc.emitter : Proc → Option ℕ
  | .synch b _ _ => some b
  | .proton b _ => some b
  | .ssc b _ _ => some b
  | .ec e => some e.blob
  | .abs _ => none

/-- `sed_luminosity`, synchrotron.py:260-265, proton_synchrotron.py:170-175, synchrotron_self_compton.py:177-182,
external_compton.py:636-640 -/
def luminosity (k : Consts) (p : ℕ) (nu : ℝ) : Option ℝ := do
  let q ← h.procs[p]?
  let a ← q.emitter
  let b ← h.blob a
  let flux ← h.ask k p nu
  some (4 * Real.pi * b.d_L ^ 2 * flux)

end Heap

/-! ### Construction -/

/-- arguments of the constructors of the targets -/
inductive TargetArgs where
  | cmb (z : ℝ)
  | ps (L_0 epsilon_0 : ℝ)
  | disk (M_BH L_disk eta : ℝ) (R_in R_out : Len) (R_g_units : Bool)
  | blr (L_disk xi_line : ℝ) (line : String) (R_line : ℝ)
  | dt (L_disk xi_dt T_dt : ℝ) (R_dt : Option ℝ)

/-- targets.py:164-169, 197-200, 240-275, 485-496, 564-582 -/
def TargetArgs.new (k : Consts) : TargetArgs → Option TargetObj
  | .cmb z => some (.cmb (CMB.new k z))
  | .ps L_0 epsilon_0 => some (.ps ⟨L_0, epsilon_0⟩)
  | .disk M L eta R_in R_out units => (DiskObj.new k M L eta R_in R_out units).map .disk
  | .blr L xi line R => (BLRObj.new k L xi line R).map .blr
  | .dt L xi T R => some (.dt (DTObj.new k L xi T R))

/-- `set_mu`, external_compton.py:48-57: for a disk the array has the default size whatever `mu_size` is, and the
distance `r` is needed -/
def ECObj.setMu (t : TargetObj) (e : ECObj) (mu_size : ℕ) : Option ECObj :=
  match t with
  | .disk d => e.r.map fun r =>
    { e with mu_size, mu := SSDisk.muFromRTilde d.R_in_tilde d.R_out_tilde (r / d.R_g) 100 }
  | _ => some { e with mu_size, mu := linspace (-1) 1 mu_size }

/-- `set_phi`, external_compton.py:59-61 -/
def ECObj.setPhi (e : ECObj) (phi_size : ℕ) : ECObj := { e with phi_size, phi := linspace 0 (2 * Real.pi) phi_size }

/-- `ExternalCompton.__init__`, external_compton.py:40-46 -/
def ECObj.new (t : TargetObj) (blob target : ℕ) (r : Option ℝ) (integrator : List ℝ → List ℝ → ℝ) : Option ECObj :=
  let e : ECObj := { blob, target, r, integrator, mu_size := 0, mu := [], phi_size := 0, phi := [] }
  (e.setMu t 100).map fun e => e.setPhi 50

/-- `set_mu`, targets_absorption.py:75-77 -/
def AbsObj.setMu (a : AbsObj) (mu_size : ℕ) : AbsObj := { a with mu_size, mu := linspace (-1) 1 mu_size }

/-- `set_phi`, targets_absorption.py:79-82 -/
def AbsObj.setPhi (a : AbsObj) (phi_size : ℕ) : AbsObj := { a with phi_size, phi := linspace 0 (2 * Real.pi) phi_size }

/-- `Absorption.__init__`, targets_absorption.py:59-73; `none` is the ValueError -/
def AbsObj.new (target : AbsRef) (r : Option ℝ) (z mu_s : ℝ) : Option AbsObj :=
  let a : AbsObj := { target, r, z, mu_s, mu_size := 0, mu := [], phi_size := 0, phi := [], l_size := 50 }
  let a := (a.setMu 100).setPhi 50
  match r, target with
  | none, .target _ => none
  | _, _ => some a

/-- arguments of the constructors of the processes -/
inductive ProcArgs where
  | synch (blob : ℕ) (ssa : Bool) (integrator : List ℝ → List ℝ → ℝ)
  | proton (blob : ℕ) (integrator : List ℝ → List ℝ → ℝ)
  | ssc (blob : ℕ) (ssa : Bool) (integrator : List ℝ → List ℝ → ℝ)
  | ec (blob target : ℕ) (r : Option ℝ) (integrator : List ℝ → List ℝ → ℝ)
  | abs (target : AbsRef) (r : Option ℝ) (z mu_s : ℝ)

/-- synchrotron.py:88-91, proton_synchrotron.py:34-37, synchrotron_self_compton.py:32-35, external_compton.py:40-46,
targets_absorption.py:59-73 -/
def ProcArgs.new (h : Heap) : ProcArgs → Option Proc
  | .synch b ssa I => some (.synch b ssa I)
  | .proton b I => some (.proton b I)
  | .ssc b ssa I => some (.ssc b ssa I)
  | .ec b t r I => do
    let tgt ← h.targets[t]?
    let e ← ECObj.new tgt b t r I
    some (.ec e)
  | .abs t r z mu_s => (AbsObj.new t r z mu_s).map .abs

/-! ### Assignments -/

/-- assignments to attributes of a blob, and `set_delta_D` -/
inductive BlobSet where
  | R_b (x : ℝ)
  | z (x : ℝ)
  | delta_D (x : ℝ)
  | Gamma (x : ℝ)
  | B (x : ℝ)
  | n_e (a : ℕ)
  | n_p (a : Option ℕ)
  | xi (x : ℝ)
  | gamma_e_size (n : ℕ)
  | gamma_p_size (n : ℕ)
  | setDeltaD (Gamma theta_s : ℝ)

/-- plain attributes; setters of `n_e` and `n_p` blob.py:171-174, 184-187; `set_delta_D` blob.py:124-137 (degrees) -/
def BlobSet.run (b : BlobObj) : BlobSet → BlobObj
  | .R_b x => { b with R_b := x }
  | .z x => { b with z := x }
  | .delta_D x => { b with delta_D := x }
  | .Gamma x => { b with Gamma := x }
  | .B x => { b with B := x }
  | .n_e a => { b with n_e := a }
  | .n_p a => { b with n_p := a }
  | .xi x => { b with xi := x }
  | .gamma_e_size n => { b with gamma_e_size := n }
  | .gamma_p_size n => { b with gamma_p_size := n }
  | .setDeltaD G theta_s =>
    let mu_s := Real.cos (theta_s * Real.pi / 180)
    let Beta := √(1 - 1 / G ^ 2)
    { b with Gamma := G, delta_D := 1 / (G * (1 - Beta * mu_s)) }

/-- assignments to attributes of a target; those to an object of another class do nothing here -/
inductive TargetSet where
  | u_0 (x : ℝ)
  | epsilon_0 (x : ℝ)
  | L_0 (x : ℝ)
  | M_BH (x : ℝ)
  | eta (x : ℝ)
  | R_in (x : ℝ)
  | R_out (x : ℝ)
  | L_disk (x : ℝ)
  | xi_line (x : ℝ)
  | line (x : String)
  | R_line (x : ℝ)
  | xi_dt (x : ℝ)
  | T_dt (x : ℝ)
  | R_dt (x : ℝ)

/-- plain attributes of targets.py:164-169, 197-200, 241-275, 486-496, 565-582 -/
def TargetSet.run : TargetObj → TargetSet → TargetObj
  | .cmb t, .u_0 x => .cmb { t with u_0 := x }
  | .cmb t, .epsilon_0 x => .cmb { t with epsilon_0 := x }
  | .ps t, .L_0 x => .ps { t with L_0 := x }
  | .ps t, .epsilon_0 x => .ps { t with epsilon_0 := x }
  | .disk t, .M_BH x => .disk { t with M_BH := x }
  | .disk t, .L_disk x => .disk { t with L_disk := x }
  | .disk t, .eta x => .disk { t with eta := x }
  | .disk t, .R_in x => .disk { t with R_in := x }
  | .disk t, .R_out x => .disk { t with R_out := x }
  | .blr t, .L_disk x => .blr { t with L_disk := x }
  | .blr t, .xi_line x => .blr { t with xi_line := x }
  | .blr t, .line x => .blr { t with line := x }
  | .blr t, .R_line x => .blr { t with R_line := x }
  | .dt t, .L_disk x => .dt { t with L_disk := x }
  | .dt t, .xi_dt x => .dt { t with xi_dt := x }
  | .dt t, .T_dt x => .dt { t with T_dt := x }
  | .dt t, .R_dt x => .dt { t with R_dt := x }
  | t, _ => t

/-- assignments to attributes of a process, and the methods that set the integration grids -/
inductive ProcSet where
  | blob (a : ℕ)
  | ssa (x : Bool)
  | integrator (f : List ℝ → List ℝ → ℝ)
  | target (a : ℕ)
  | r (x : Option ℝ)
  | z (x : ℝ)
  | mu_s (x : ℝ)
  | setMu (n : ℕ)
  | setPhi (n : ℕ)
  | setL (n : ℕ)

/-- plain attributes; set_mu, set_phi of external_compton.py:48-61, set_mu, set_phi, set_l of
targets_absorption.py:75-86.  An `Absorption` on a blob gets its target from the constructor only. -/
def ProcSet.run (h : Heap) : Proc → ProcSet → Option Proc
  | .synch _ s I, .blob a => some (.synch a s I)
  | .synch b _ I, .ssa x => some (.synch b x I)
  | .synch b s _, .integrator f => some (.synch b s f)
  | .proton _ I, .blob a => some (.proton a I)
  | .proton b _, .integrator f => some (.proton b f)
  | .ssc _ s I, .blob a => some (.ssc a s I)
  | .ssc b _ I, .ssa x => some (.ssc b x I)
  | .ssc b s _, .integrator f => some (.ssc b s f)
  | .ec e, .blob a => some (.ec { e with blob := a })
  | .ec e, .integrator f => some (.ec { e with integrator := f })
  | .ec e, .target a => if a < h.targets.length then some (.ec { e with target := a }) else none
  | .ec e, .r x => some (.ec { e with r := x })
  | .ec e, .setMu n => do
    let t ← h.targets[e.target]?
    let e ← e.setMu t n
    some (.ec e)
  | .ec e, .setPhi n => some (.ec (e.setPhi n))
  | .abs a, .target t => some (.abs { a with target := .target t })
  | .abs a, .r x => some (.abs { a with r := x })
  | .abs a, .z x => some (.abs { a with z := x })
  | .abs a, .mu_s x => some (.abs { a with mu_s := x })
  | .abs a, .setMu n => some (.abs (a.setMu n))
  | .abs a, .setPhi n => some (.abs (a.setPhi n))
  | .abs a, .setL n => some (.abs { a with l_size := n })
  | p, _ => some p

/-- one statement of a user's program.  `setDist` is any assignment to attributes of a distribution: it may turn the
object into any other distribution. -/
inductive Op where
  | newDist (d : Dist)
  | newBlob (b : BlobObj)
  | newTarget (t : TargetArgs)
  | newProc (p : ProcArgs)
  | setDist (a : ℕ) (d : Dist)
  | setBlob (a : ℕ) (s : BlobSet)
  | setTarget (a : ℕ) (s : TargetSet)
  | setProc (a : ℕ) (s : ProcSet)

/-- new objects get the next free place; `none` when the statement raises -/
def step (k : Consts) (distance : ℝ → ℝ) (h : Heap) : Op → Option Heap
  | .newDist d => some { h with dists := h.dists ++ [d] }
  | .newBlob b => (BlobObj.new distance b).map fun b => { h with blobs := h.blobs ++ [b] }
  | .newTarget t => (t.new k).map fun t => { h with targets := h.targets ++ [t] }
  | .newProc p => (p.new h).map fun p => { h with procs := h.procs ++ [p] }
  | .setDist a d => some { h with dists := h.dists.set a d }
  | .setBlob a s => (h.blobs[a]?).map fun b => { h with blobs := h.blobs.set a (s.run b) }
  | .setTarget a s => (h.targets[a]?).map fun t => { h with targets := h.targets.set a (s.run t) }
  | .setProc a s => do
    let p ← h.procs[a]?
    let p ← s.run h p
    some { h with procs := h.procs.set a p }

/-- a program, statement by statement -/
def run (k : Consts) (distance : ℝ → ℝ) : Heap → List Op → Option Heap
  | h, [] => some h
  | h, op :: ops => (step k distance h op).bind fun h => run k distance h ops

end Verif.Objects

end
