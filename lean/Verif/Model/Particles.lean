import Verif.Model.Blob

/-
Particle distributions with their species, and emission regions built from them.  `Spectra.Dist` leaves out the mass.
-/

noncomputable section

namespace Verif.Particles

open MathUtils Spectra Region

/-- the argument `mass`: the constants `m_e` and `m_p` of astropy themselves, or any other object (a copy of either
included) with its value -/
inductive MassArg where
  | m_e
  | m_p
  | other (value : ℝ)

/-- `mass.to("erg", equivalencies=u.mass_energy())`, spectra.py:141 -/
def MassArg.mc2 (k : Consts) : MassArg → ℝ
  | .m_e => k.mec2
  | .m_p => k.mpc2
  | .other m => m * k.c ^ 2

/-- the attribute `particle` -/
inductive Species where
  | electrons
  | protons
  deriving DecidableEq

/-- a distribution with its attribute `particle`; the attribute `mass` follows it -/
structure Pop where
  dist : Dist
  species : Species

/-- failures of the constructors -/
inductive Err where
  /-- ValueError: "No distribution for particles with mass ... is available" -/
  | noDistribution
  | ctor (e : CtorErr)
  deriving DecidableEq

/-- `ParticleDistribution.__init__`, spectra.py:36-51: the mass is compared by identity -/
def make (d : Dist) : MassArg → Except Err Pop
  | .m_e => .ok ⟨d, .electrons⟩
  | .m_p => .ok ⟨d, .protons⟩
  | .other _ => .error .noDistribution

/-- the last line of the class methods: `cls(k=..., **kwargs, mass=mass)` -/
def finish (mass : MassArg) : Except CtorErr Dist → Except Err Pop
  | .ok d => make d mass
  | .error e => .error (.ctor e)

/-- `from_total_density`, spectra.py:98-118 -/
def ofDensity (s : Shape) (n_tot : ℝ) (mass : MassArg) (gmin gmax : Option ℝ) : Except Err Pop :=
  finish mass (fromTotalDensity s n_tot gmin gmax)

/-- `from_total_energy_density`, spectra.py:121-143 -/
def ofEnergyDensity (k : Consts) (s : Shape) (u_tot : ℝ) (mass : MassArg) (gmin gmax : Option ℝ) : Except Err Pop :=
  finish mass (fromTotalEnergyDensity s (mass.mc2 k) u_tot gmin gmax)

/-- `from_density_at_gamma_1`, spectra.py:146-158 -/
def ofDensityAt1 (s : Shape) (n1 : ℝ) (mass : MassArg) (gmin gmax : ℝ) : Except Err Pop :=
  finish mass (fromDensityAtGamma1 s n1 gmin gmax)

/-- `from_total_energy`, spectra.py:161-176 -/
def ofEnergy (k : Consts) (s : Shape) (W V : ℝ) (mass : MassArg) (gmin gmax : Option ℝ) : Except Err Pop :=
  finish mass (fromTotalEnergy s (mass.mc2 k) W V gmin gmax)

/-- the setter `n_e`, blob.py:171-174 (and `__init__`, 85): the species is not checked -/
def setElectrons (b : Blob) (p : Pop) : Blob := { b with n_e := p.dist }

/-- the setter `n_p`, blob.py:184-187 (and `__init__`, 86): the species is not checked -/
def setProtons (b : Blob) (p : Pop) : Blob := { b with n_p := some p.dist }

/-- `Blob.N_p`, blob.py:221-230 -/
def N_p (b : Blob) (gamma : List ℝ) : Except BlobErr (List ℝ) := do
  let n ← b.protons
  .ok ((n.evaluate gamma).2.map (b.V_b * ·))

end Verif.Particles

end
