import Verif.Props.PhotonCount
import Verif.Props.TargetField

/-
C103: results do not depend on the system of units.

Specification: a change of the units of length, mass, time and temperature (`Units`) multiplies the values of the
constants and parameters by factors given by their dimensions.  Every result must be multiplied by the factor of its
own dimension.  Electromagnetic quantities are Gaussian (charge M^1/2 L^3/2 T^-1, field M^1/2 L^-1/2 T^-1), hence the
squares.
-/

namespace Verif.UnitSystem

open MathUtils Spectra

/-- one old unit of length is `l ^ 2` new ones, of mass `m ^ 2`, of time `t`, of temperature `θ` -/
structure Units where
  l : ℝ
  m : ℝ
  t : ℝ
  θ : ℝ
  l_pos : 0 < l
  m_pos : 0 < m
  t_pos : 0 < t
  θ_pos : 0 < θ

namespace Units

variable (u : Units)

/-- the constants of nature in the new units -/
noncomputable def consts (k : Consts) : Consts where
  c := u.l ^ 2 / u.t * k.c
  m_e := u.m ^ 2 * k.m_e
  m_p := u.m ^ 2 * k.m_p
  h := u.m ^ 2 * u.l ^ 4 / u.t * k.h
  e := u.m * u.l ^ 3 / u.t * k.e
  sigma_T := u.l ^ 4 * k.sigma_T
  G := u.l ^ 6 / (u.m ^ 2 * u.t ^ 2) * k.G
  k_B := u.m ^ 2 * u.l ^ 4 / (u.t ^ 2 * u.θ) * k.k_B
  sigma_sb := u.m ^ 2 / (u.t ^ 3 * u.θ ^ 4) * k.sigma_sb
  M_sun := u.m ^ 2 * k.M_sun

def length (x : ℝ) : ℝ := u.l ^ 2 * x
def mass (x : ℝ) : ℝ := u.m ^ 2 * x
noncomputable def frequency (x : ℝ) : ℝ := x / u.t
noncomputable def field (x : ℝ) : ℝ := u.m / (u.l * u.t) * x
noncomputable def luminosity (x : ℝ) : ℝ := u.m ^ 2 * u.l ^ 4 / u.t ^ 3 * x
/-- energy per area and time -/
noncomputable def flux (x : ℝ) : ℝ := u.m ^ 2 / u.t ^ 3 * x
noncomputable def energyDensity (x : ℝ) : ℝ := u.m ^ 2 / (u.l ^ 2 * u.t ^ 2) * x
/-- a distribution of particles per volume -/
noncomputable def particles (n : Dist) : Dist := n.scale (1 / u.l ^ 6)

end Units

variable {u : Units} {k : Consts}

theorem pos (hk : k.Pos) : (u.consts k).Pos := by
  have := u.l_pos; have := u.m_pos; have := u.t_pos; have := u.θ_pos
  have := hk.c; have := hk.m_e; have := hk.m_p; have := hk.h; have := hk.e; have := hk.sigma_T; have := hk.G
  have := hk.k_B; have := hk.sigma_sb; have := hk.M_sun
  constructor <;> simp only [Units.consts] <;> positivity

/-- energies in units of the rest mass are numbers -/
theorem eps (hk : k.Pos) (nu z δ : ℝ) : nuToEps (u.consts k) (u.frequency nu) z δ = nuToEps k nu z δ := by
  have := u.l_pos; have := u.m_pos; have := u.t_pos; have := hk.c; have := hk.m_e
  simp only [nuToEps, Consts.mec2, Units.consts, Units.frequency]
  have e : u.m ^ 2 * u.l ^ 4 / u.t * k.h * (nu / u.t) / (u.m ^ 2 * k.m_e * (u.l ^ 2 / u.t * k.c) ^ 2)
      = k.h * nu / (k.m_e * k.c ^ 2) := by
    field_simp
  rw [e]

theorem epsP (hk : k.Pos) (nu z δ : ℝ) : nuToEpsP (u.consts k) (u.frequency nu) z δ = nuToEpsP k nu z δ := by
  have := u.l_pos; have := u.m_pos; have := u.t_pos; have := hk.c; have := hk.m_p
  simp only [nuToEpsP, Consts.mpc2, Units.consts, Units.frequency]
  have e : u.m ^ 2 * u.l ^ 4 / u.t * k.h * (nu / u.t) / (u.m ^ 2 * k.m_p * (u.l ^ 2 / u.t * k.c) ^ 2)
      = k.h * nu / (k.m_p * k.c ^ 2) := by
    field_simp
  rw [e]

/-- the power radiated by a particle is a luminosity -/
theorem power (hk : k.Pos) {B : ℝ} (hB : 0 < B) (ε g m : ℝ) :
    Synchrotron.power (u.consts k) (u.field B) ε g (u.mass m) = u.luminosity (Synchrotron.power k B ε g m) := by
  have := u.l_pos; have := u.m_pos; have := u.t_pos; have := hk.c; have := hk.h; have := hk.e
  unfold Synchrotron.power
  have e : Synchrotron.calcX (u.consts k) (u.field B) ε g (u.mass m) = Synchrotron.calcX k B ε g m := by
    simp only [Synchrotron.calcX, Units.consts, Units.field, Units.mass]
    rcases eq_or_ne g 0 with rfl | hg
    · simp
    · field_simp
  simp only [e]
  generalize Synchrotron.R (Synchrotron.calcX k B ε g m) = r
  simp only [Units.luminosity, Units.consts, Units.field]
  field_simp

variable {I : List ℝ → List ℝ → ℝ}

theorem tauSSA (hk : k.Pos) (hI : HomogeneousIntegrator I) {B : ℝ} (hB : 0 < B) (nu z δ R_b : ℝ) (n : Dist)
    (gamma : List ℝ) :
    Synchrotron.tauSSA (u.consts k) I (u.frequency nu) z δ (u.field B) (u.length R_b) (u.particles n) gamma
      = Synchrotron.tauSSA k I nu z δ B R_b n gamma := by
  have := u.l_pos; have := u.m_pos; have := u.t_pos; have := hk.c; have := hk.h; have := hk.m_e
  unfold Synchrotron.tauSSA Dist.ssaIntegrand
  simp only [eps hk, Units.particles, Dist.scale_afterSSA]
  have e : List.zipWith (· * ·)
        (List.zipWith (n.scale (1 / u.l ^ 6)).ssaElem gamma (n.afterSSA gamma))
        ((n.afterSSA gamma).map fun g => Synchrotron.power (u.consts k) (u.field B) (nuToEps k nu z δ) g (u.consts k).m_e)
      = (List.zipWith (· * ·) (List.zipWith n.ssaElem gamma (n.afterSSA gamma))
        ((n.afterSSA gamma).map fun g => Synchrotron.power k B (nuToEps k nu z δ) g k.m_e)).map
          ((u.m ^ 2 / (u.l ^ 2 * u.t ^ 3)) * ·) := by
    rw [List.map_zipWith]
    generalize n.afterSSA gamma = gs
    induction gamma generalizing gs with
    | nil => simp
    | cons x xs ih =>
      cases gs with
      | nil => simp
      | cons y ys =>
        simp only [List.zipWith_cons_cons, List.map_cons]
        rw [ih, Dist.scale_ssaElem, show (u.consts k).m_e = u.mass k.m_e from rfl, power hk hB]
        congr 1
        simp only [Units.luminosity]
        field_simp
  rw [e, hI]
  generalize I _ _ = J
  simp only [Consts.lambda_c_e, Units.consts, Units.length]
  generalize nuToEps k nu z δ = ε
  rcases eq_or_ne ε 0 with rfl | hε
  · simp
  · field_simp

theorem sedThin (hk : k.Pos) (hI : HomogeneousIntegrator I) {B d_L : ℝ} (hB : 0 < B) (hd : 0 < d_L) (nu z δ R_b : ℝ)
    (n : Dist) (gamma : List ℝ) :
    Synchrotron.sedThin (u.consts k) I (u.frequency nu) z (u.length d_L) δ (u.field B) (u.length R_b) (u.particles n) gamma
      = u.flux (Synchrotron.sedThin k I nu z d_L δ B R_b n gamma) := by
  have := u.l_pos; have := u.m_pos; have := u.t_pos
  rw [Synchrotron.sedThin_eq, Synchrotron.sedThin_eq, Units.particles, Dist.scale_afterCall, eps hk]
  have e : (fun g => Synchrotron.volume (u.length R_b) * (n.scale (1 / u.l ^ 6)).call g
        * Synchrotron.power (u.consts k) (u.field B) (nuToEps k nu z δ) g (u.consts k).m_e)
      = fun g => u.luminosity 1 * (Synchrotron.volume R_b * n.call g
        * Synchrotron.power k B (nuToEps k nu z δ) g k.m_e) := by
    funext g
    rw [Dist.scale_call, show (u.consts k).m_e = u.mass k.m_e from rfl, power hk hB]
    simp only [Synchrotron.volume, Units.length, Units.luminosity]
    field_simp
  rw [e, over_scale hI]
  generalize over I _ _ = J
  simp only [Units.length, Units.luminosity, Units.flux]
  field_simp

/-- C103: synchrotron, with and without self-absorption -/
theorem C103_synchrotron (hk : k.Pos) (hI : HomogeneousIntegrator I) {B d_L : ℝ} (hB : 0 < B) (hd : 0 < d_L) (ssa : Bool)
    (nu z δ R_b : ℝ) (n : Dist) (gamma : List ℝ) :
    Synchrotron.sedFlux (u.consts k) I ssa (u.frequency nu) z (u.length d_L) δ (u.field B) (u.length R_b) (u.particles n)
        gamma
      = u.flux (Synchrotron.sedFlux k I ssa nu z d_L δ B R_b n gamma) := by
  unfold Synchrotron.sedFlux
  simp only [sedThin hk hI hB hd, tauSSA hk hI hB]
  rw [show (u.particles n).afterCall gamma = n.afterCall gamma from Dist.scale_afterCall _ _ _]
  split_ifs
  · simp only [Units.flux]; ring
  · rfl

/-- C103: proton synchrotron -/
theorem C103_proton (hk : k.Pos) (hI : HomogeneousIntegrator I) {B d_L : ℝ} (hB : 0 < B) (hd : 0 < d_L)
    (nu z δ R_b : ℝ) (n : Dist) (gamma : List ℝ) :
    Synchrotron.sedFluxProton (u.consts k) I (u.frequency nu) z (u.length d_L) δ (u.field B) (u.length R_b) (u.particles n)
        gamma
      = u.flux (Synchrotron.sedFluxProton k I nu z d_L δ B R_b n gamma) := by
  have := u.l_pos; have := u.m_pos; have := u.t_pos
  unfold Synchrotron.sedFluxProton Dist.evaluate
  simp only [epsP hk, Units.particles, Dist.scale_afterCall, List.map_map, zipWith_mul_map]
  have e : (fun x => ((fun x => Synchrotron.volume (u.length R_b) * x) ∘ (n.scale (1 / u.l ^ 6)).call) x
        * Synchrotron.power (u.consts k) (u.field B) (nuToEpsP k nu z δ) x (u.consts k).m_p)
      = fun g => u.luminosity 1 * (((fun x => Synchrotron.volume R_b * x) ∘ n.call) g
        * Synchrotron.power k B (nuToEpsP k nu z δ) g k.m_p) := by
    funext g
    simp only [Function.comp]
    rw [Dist.scale_call, show (u.consts k).m_p = u.mass k.m_p from rfl, power hk hB]
    simp only [Synchrotron.volume, Units.length, Units.luminosity]
    field_simp
  rw [e]
  have := over_scale hI (n.afterCall gamma) (fun g => ((fun x => Synchrotron.volume R_b * x) ∘ n.call) g
        * Synchrotron.power k B (nuToEpsP k nu z δ) g k.m_p) (u.luminosity 1)
  unfold over at this
  rw [this]
  generalize I _ _ = J
  simp only [Units.length, Units.luminosity, Units.flux]
  field_simp

/-! ### inverse Compton -/

theorem frequency_one (h : u.t = 1) (nu : ℝ) : u.frequency nu = nu := by simp [Units.frequency, h]

theorem uDiff (hk : k.Pos) {R_b : ℝ} (hR : 0 < R_b) (d_L δ ε s : ℝ) :
    Region.uPhSynchDiff (u.consts k) (u.length R_b) (u.length d_L) δ ε (u.flux s)
      = u.energyDensity (Region.uPhSynchDiff k R_b d_L δ ε s) := by
  have := u.l_pos; have := u.m_pos; have := u.t_pos; have := hk.c
  simp only [Region.uPhSynchDiff, Units.consts, Units.length, Units.flux, Units.energyDensity]
  rcases eq_or_ne (δ ^ 4 * ε) 0 with h | h
  · have e1 : u.l ^ 2 / u.t * k.c * (u.l ^ 2 * R_b) ^ 2 * δ ^ 4 * ε = 0 := by rw [mul_assoc, h, mul_zero]
    have e2 : k.c * R_b ^ 2 * δ ^ 4 * ε = 0 := by rw [mul_assoc, h, mul_zero]
    rw [e1, e2]; simp
  · have h1 : δ ≠ 0 := fun h0 => h (by rw [h0]; ring)
    have h2 : ε ≠ 0 := fun h0 => h (by rw [h0]; ring)
    field_simp

theorem vol (R_b x : ℝ) : Synchrotron.volume (u.length R_b) * (1 / u.l ^ 6 * x) = Synchrotron.volume R_b * x := by
  have := u.l_pos
  simp only [Synchrotron.volume, Units.length]
  field_simp

/-- C103: SSC.  The code integrates over frequencies given in Hz, so the unit of time stays. -/
theorem C103_ssc (hk : k.Pos) (hI : HomogeneousIntegrator I) (ht : u.t = 1) {B d_L R_b : ℝ} (hB : 0 < B) (hd : 0 < d_L)
    (hR : 0 < R_b) (ssa : Bool) (nu z δ : ℝ) (n : Dist) (gamma : List ℝ) :
    Compton.sscSed (u.consts k) I ssa nu z (u.length d_L) δ (u.field B) (u.length R_b) (u.particles n) gamma
      = u.flux (Compton.sscSed k I ssa nu z d_L δ B R_b n gamma) := by
  have := u.l_pos; have := u.m_pos; have := hk.c
  have e1 : ∀ nu, nuToEps (u.consts k) nu z δ = nuToEps k nu z δ := fun nu => by
    have := eps (u := u) hk nu z δ
    rwa [frequency_one ht] at this
  have e2 : ∀ nu, Synchrotron.sedFlux (u.consts k) I ssa nu z (u.length d_L) δ (u.field B) (u.length R_b)
      (n.scale (1 / u.l ^ 6)) gamma = u.flux (Synchrotron.sedFlux k I ssa nu z d_L δ B R_b n gamma) := fun nu => by
    have := C103_synchrotron (u := u) hk hI hB hd ssa nu z δ R_b n gamma
    rwa [frequency_one ht] at this
  have e3 : ∀ a b c d K : ℝ, u.energyDensity a / b * c / d * K = u.energyDensity 1 * (a / b * c / d * K) :=
    fun a b c d K => by simp only [Units.energyDensity]; ring
  unfold Compton.sscSed
  simp only [e1, Units.particles, e2, Dist.scale_afterCall, Dist.scale_afterSSA, Dist.scale_call, uDiff hk hR, vol, e3,
    over_scale hI]
  have e4 : ∀ (c : ℝ) (f : ℝ → ℝ) (l : List ℝ), l.map (fun x => c * f x) = (l.map f).map (c * ·) := fun c f l => by
    rw [List.map_map]; rfl
  rw [e4, hI]
  generalize I _ _ = J
  simp only [Units.consts, Units.length, Units.flux, Units.energyDensity, ht]
  field_simp

theorem boosted (n : Dist) (R_b δ : ℝ) (gamma : List ℝ) :
    Compton.boostedN (u.particles n) (u.length R_b) δ gamma = Compton.boostedN n R_b δ gamma := by
  unfold Compton.boostedN Dist.evaluate
  simp only [Units.particles, Dist.scale_afterCall, List.map_map]
  apply List.map_congr_left
  intro g _
  simp only [Function.comp, Dist.scale_call, vol]

/-- C103: external Compton on an isotropic field -/
theorem C103_iso (hk : k.Pos) {d_L : ℝ} (hd : 0 < d_L) (nu z δ mu_s R_b epsilon_0 u_0 : ℝ) (n : Dist)
    (gamma mu phi : List ℝ) :
    Compton.isoMono (u.consts k) I (u.frequency nu) z (u.length d_L) δ mu_s (u.length R_b) epsilon_0 (u.energyDensity u_0)
        (u.particles n) gamma mu phi
      = u.flux (Compton.isoMono k I nu z d_L δ mu_s R_b epsilon_0 u_0 n gamma mu phi) := by
  have := u.l_pos; have := u.m_pos; have := u.t_pos
  unfold Compton.isoMono
  simp only [boosted, eps hk]
  generalize over trapz phi _ = J
  simp only [Units.consts, Units.length, Units.flux, Units.energyDensity]
  rcases eq_or_ne epsilon_0 0 with rfl | h
  · simp
  · field_simp

/-- C103: external Compton on a point source behind the jet -/
theorem C103_ps (hk : k.Pos) {d_L r : ℝ} (hd : 0 < d_L) (hr : 0 < r) (nu z δ mu_s R_b epsilon_0 L_0 : ℝ) (n : Dist)
    (gamma : List ℝ) :
    Compton.psBehindJet (u.consts k) I (u.frequency nu) z (u.length d_L) δ mu_s (u.length R_b) epsilon_0 (u.luminosity L_0)
        (u.length r) (u.particles n) gamma
      = u.flux (Compton.psBehindJet k I nu z d_L δ mu_s R_b epsilon_0 L_0 r n gamma) := by
  have := u.l_pos; have := u.m_pos; have := u.t_pos
  unfold Compton.psBehindJet
  simp only [boosted, eps hk]
  generalize Compton.fold I _ _ _ = J
  simp only [Units.consts, Units.length, Units.flux, Units.luminosity]
  rcases eq_or_ne epsilon_0 0 with rfl | h
  · simp
  · field_simp

/-! geometry -/

theorem sqrt_length (x : ℝ) : √(u.l ^ 4 * x) = u.l ^ 2 * √x := by
  have := u.l_pos
  rw [Real.sqrt_mul (by positivity), show u.l ^ 4 = (u.l ^ 2) ^ 2 by ring, Real.sqrt_sq (by positivity)]

theorem ring' (R r : ℝ) : Geometry.xReRing (u.length R) (u.length r) = u.length (Geometry.xReRing R r) := by
  unfold Geometry.xReRing Units.length
  rw [← sqrt_length]
  ring_nf

theorem shell (mu R r : ℝ) : Geometry.xReShell mu (u.length R) (u.length r) = u.length (Geometry.xReShell mu R r) := by
  unfold Geometry.xReShell Units.length
  rw [← sqrt_length]
  ring_nf

theorem length_div (a b : ℝ) : u.length a / u.length b = a / b := by
  have := u.l_pos
  unfold Units.length
  rw [mul_div_mul_left _ _ (by positivity)]

theorem muStar (mu R r : ℝ) : Geometry.muStarShell mu (u.length R) (u.length r) = Geometry.muStarShell mu R r := by
  unfold Geometry.muStarShell
  simp only [shell, length_div]
  have h : (u.length r > mu * u.length R) ↔ r > mu * R := by
    have := u.l_pos
    unfold Units.length
    rw [gt_iff_lt, gt_iff_lt, show mu * (u.l ^ 2 * R) = u.l ^ 2 * (mu * R) by ring, mul_lt_mul_iff_right₀ (by positivity)]
  simp only [h]

/-- C103: external Compton on the broad line region -/
theorem C103_blr (hk : k.Pos) {d_L : ℝ} (hd : 0 < d_L) (nu z δ mu_s R_b L_disk xi epsilon_line R_line r : ℝ) (n : Dist)
    (gamma mu phi : List ℝ) :
    Compton.blr (u.consts k) trapz (u.frequency nu) z (u.length d_L) δ mu_s (u.length R_b) (u.luminosity L_disk) xi
        epsilon_line (u.length R_line) (u.length r) (u.particles n) gamma mu phi
      = u.flux (Compton.blr k trapz nu z d_L δ mu_s R_b L_disk xi epsilon_line R_line r n gamma mu phi) := by
  have := u.l_pos; have := u.m_pos; have := u.t_pos
  have e : ∀ x N g K : ℝ, 1 / u.length x ^ 2 * N / g ^ 2 * K = 1 / u.l ^ 4 * (1 / x ^ 2 * N / g ^ 2 * K) :=
    fun x N g K => by
      unfold Units.length
      ring
  unfold Compton.blr
  simp only [boosted, eps hk, muStar, shell, e, Compton.fold_mul, over_scale homogeneous_trapz]
  generalize over trapz phi _ = J
  simp only [Units.consts, Units.length, Units.flux, Units.luminosity]
  rcases eq_or_ne epsilon_line 0 with rfl | h
  · simp
  · field_simp

/-- C103: external Compton on the torus -/
theorem C103_dt (hk : k.Pos) {d_L R_dt r : ℝ} (hd : 0 < d_L) (hR : 0 < R_dt)
    (nu z δ mu_s R_b L_disk xi epsilon_dt : ℝ) (n : Dist) (gamma phi : List ℝ) :
    Compton.dt (u.consts k) I (u.frequency nu) z (u.length d_L) δ mu_s (u.length R_b) (u.luminosity L_disk) xi
        epsilon_dt (u.length R_dt) (u.length r) (u.particles n) gamma phi
      = u.flux (Compton.dt k I nu z d_L δ mu_s R_b L_disk xi epsilon_dt R_dt r n gamma phi) := by
  have := u.l_pos; have := u.m_pos; have := u.t_pos
  unfold Compton.dt
  simp only [boosted, eps hk, ring', length_div]
  generalize over trapz phi _ = J
  have hx : 0 < Geometry.xReRing R_dt r := by unfold Geometry.xReRing; positivity
  generalize Geometry.xReRing R_dt r = x at hx
  simp only [Units.consts, Units.length, Units.flux, Units.luminosity]
  rcases eq_or_ne epsilon_dt 0 with rfl | h
  · simp
  · field_simp

end Verif.UnitSystem
