import Verif.Lemmas.Planck
import Verif.Props.Redshift
import Verif.Props.DiskPower

/- C96: the thermal SEDs, integrated over all frequencies. -/

noncomputable section

namespace Verif.Targets

open MathUtils MeasureTheory Set

/-- the flux of an SED `nu F_nu` through all frequencies -/
def flux (sed : ℝ → ℝ) : ℝ := ∫ nu in Ioi (0 : ℝ), sed nu / nu

/-- the value of the constant of Stefan and Boltzmann in terms of the other constants (a fact about astropy's constants) -/
def StefanBoltzmann (k : Consts) : Prop := k.sigma_sb = 2 * Real.pi ^ 5 * k.k_B ^ 4 / (15 * k.h ^ 3 * k.c ^ 2)

/-- the intensity of a black body over all frequencies -/
theorem integral_planck_law {k : Consts} (hk : k.Pos) (hs : StefanBoltzmann k) {T w : ℝ} (hT : 0 ≤ T) (hw : 0 < w) :
    IntegrableOn (fun nu => planck k (nu * w) T) (Ioi 0)
      ∧ ∫ nu in Ioi (0 : ℝ), planck k (nu * w) T = k.sigma_sb * T ^ 4 / (Real.pi * w) := by
  have h1 := hk.h; have h2 := hk.c; have h3 := hk.k_B; have hpi := Real.pi_pos
  rcases hT.eq_or_lt with rfl | hT
  · have e : ∀ nu, planck k (nu * w) 0 = 0 := fun nu => by simp [planck]
    simp only [e]
    exact ⟨integrableOn_zero, by simp⟩
  · have ha : 0 < k.h * w / (k.k_B * T) := by positivity
    have e : ∀ nu, planck k (nu * w) T = 2 * k.h * w ^ 3 / (k.c ^ 2 * (k.h * w / (k.k_B * T)) ^ 3)
        * (fun x : ℝ => x ^ 3 / (Real.exp x - 1)) (k.h * w / (k.k_B * T) * nu) := by
      intro nu
      unfold planck
      rw [show k.h * (nu * w) / (k.k_B * T) = k.h * w / (k.k_B * T) * nu by ring]
      simp only []
      generalize Real.exp (k.h * w / (k.k_B * T) * nu) - 1 = E
      rcases eq_or_ne E 0 with rfl | hE
      · simp
      · field_simp
    have hi : IntegrableOn (fun x : ℝ => x ^ 3 / (Real.exp x - 1)) (Ioi 0) := by
      by_contra hc
      have := integral_planck
      rw [integral_undef hc] at this
      have : 0 < Real.pi ^ 4 / 15 := by positivity
      linarith
    simp only [e]
    constructor
    · refine Integrable.const_mul ?_ _
      have := (integrableOn_Ioi_comp_mul_left_iff (fun x : ℝ => x ^ 3 / (Real.exp x - 1)) 0 ha).2 (by simpa using hi)
      exact this
    · rw [integral_const_mul, integral_comp_mul_left_Ioi (fun x : ℝ => x ^ 3 / (Real.exp x - 1)) 0 ha, mul_zero,
        integral_planck, hs, smul_eq_mul]
      field_simp

namespace DT

/-- C96: a black body of radius `R_dt` at the distance `d_L` gives the flux of the luminosity `4 pi R_dt^2 sigma T^4` spread
over the sphere of radius `d_L`, but divided by `1 + z` -/
theorem C96_blackbody {k : Consts} (hk : k.Pos) (hs : StefanBoltzmann k) {z T_dt R_dt d_L : ℝ} (hz : 0 ≤ z) (hT : 0 ≤ T_dt) :
    flux (fun nu => bbSed k nu z T_dt R_dt d_L)
      = 4 * Real.pi * R_dt ^ 2 * (k.sigma_sb * T_dt ^ 4) / (4 * Real.pi * d_L ^ 2) / (1 + z) := by
  have hpi := Real.pi_pos
  have hz' : 0 < 1 + z := by linarith
  unfold flux
  rw [setIntegral_congr_fun (g := fun nu => Real.pi * (R_dt / d_L) ^ 2 * planck k (nu * (1 + z)) T_dt) measurableSet_Ioi
    (fun nu hnu => ?_), integral_const_mul, (integral_planck_law hk hs hT hz').2]
  · rcases eq_or_ne d_L 0 with rfl | hd
    · simp
    · field_simp
  · have : (0 : ℝ) < nu := hnu
    simp only [bbSed]
    field_simp

/-- C96: the flux of a torus is that of its luminosity `xi_dt L_disk`, whatever its radius and temperature, but divided by
`1 + z`.  (At the luminosity distance the flux ought to be the one of the luminosity, at all redshifts.) -/
theorem C96_torus_partial {k : Consts} (hk : k.Pos) (hs : StefanBoltzmann k) (t : DT) {z d_L : ℝ} (hz : 0 ≤ z)
    (hT : 0 < t.T_dt) (hR : t.R_dt ≠ 0) :
    flux (fun nu => t.sedFlux k nu z d_L) = t.xi_dt * t.L_disk / (4 * Real.pi * d_L ^ 2) / (1 + z) := by
  have hpi := Real.pi_pos
  have hσ := hk.sigma_sb
  have hz' : 0 < 1 + z := by linarith
  have e : flux (fun nu => t.sedFlux k nu z d_L)
      = t.xi_dt * t.L_disk / (4 * Real.pi * t.R_dt ^ 2 * k.sigma_sb * t.T_dt ^ 4)
        * flux (fun nu => bbSed k nu z t.T_dt t.R_dt d_L) := by
    unfold flux
    rw [← integral_const_mul]
    simp only [sedFlux, bbNormSed, mul_div_assoc]
  rw [e, C96_blackbody hk hs hz hT.le]
  rcases eq_or_ne d_L 0 with rfl | hd
  · simp
  · field_simp

/-- C96: nearby, the torus radiates what it reprocesses -/
theorem C96_torus {k : Consts} (hk : k.Pos) (hs : StefanBoltzmann k) (t : DT) {d_L : ℝ} (hT : 0 < t.T_dt) (hR : t.R_dt ≠ 0)
    (hd : d_L ≠ 0) : 4 * Real.pi * d_L ^ 2 * flux (fun nu => t.sedFlux k nu 0 d_L) = t.xi_dt * t.L_disk := by
  have hpi := Real.pi_pos
  rw [C96_torus_partial hk hs t le_rfl hT hR]
  field_simp
  ring

/-- C96 is false of every torus at a redshift other than 0: flux is missing -/
theorem C96_torus_violated {k : Consts} (hk : k.Pos) (hs : StefanBoltzmann k) {t : DT} {z d_L : ℝ} (hz : 0 < z)
    (hx : 0 < t.xi_dt) (hL : 0 < t.L_disk) (hT : 0 < t.T_dt) (hR : t.R_dt ≠ 0) (hd : d_L ≠ 0) :
    4 * Real.pi * d_L ^ 2 * flux (fun nu => t.sedFlux k nu z d_L) < t.xi_dt * t.L_disk := by
  have hpi := Real.pi_pos
  rw [C96_torus_partial hk hs t hz.le hT hR]
  have : 4 * Real.pi * d_L ^ 2 * (t.xi_dt * t.L_disk / (4 * Real.pi * d_L ^ 2) / (1 + z)) = t.xi_dt * t.L_disk / (1 + z) := by
    field_simp
  rw [this, div_lt_iff₀ (by linarith)]
  nlinarith [mul_pos hx hL]

end DT

namespace SSDisk

/-- the power radiated by both faces of the disk, on the radii of the code -/
def gridPower (k : Consts) (M_BH m_dot R_in R_out : ℝ) : ℝ :=
  Verif.over trapz (linspace R_in R_out 100) fun R => 2 * (2 * Real.pi * R) * (k.sigma_sb * T k R M_BH m_dot R_in ^ 4)

theorem integral_trapz {f : ℝ → ℝ → ℝ} : ∀ {xs : List ℝ}, (∀ x ∈ xs, IntegrableOn (fun nu => f nu x) (Ioi 0)) →
    IntegrableOn (fun nu => Verif.over trapz xs (f nu)) (Ioi 0)
      ∧ ∫ nu in Ioi (0 : ℝ), Verif.over trapz xs (f nu) = Verif.over trapz xs fun x => ∫ nu in Ioi (0 : ℝ), f nu x
  | [], _ => by simp [Verif.over, trapz]
  | [_], _ => by simp [Verif.over, trapz]
  | x :: y :: xs, h => by
    have hx := h x (by simp)
    have hy := h y (by simp)
    obtain ⟨ih1, ih2⟩ := integral_trapz (xs := y :: xs) fun w hw => h w (by simp_all)
    have e : ∀ g : ℝ → ℝ, Verif.over trapz (x :: y :: xs) g = (y - x) * (g x + g y) / 2 + Verif.over trapz (y :: xs) g := by
      intro g
      simp [Verif.over, trapz]
    simp only [e]
    have hi : IntegrableOn (fun nu => (y - x) * (f nu x + f nu y) / 2) (Ioi 0) :=
      ((hx.add hy).const_mul (y - x)).div_const 2
    refine ⟨hi.add ih1, ?_⟩
    rw [integral_add hi ih1, ih2, integral_div, integral_const_mul, integral_add hx hy]

/-- C96: the disk is a Lambert radiator.  Before the normalisation its flux is `mu_s / (2 pi d_L^2)` times the power that its
two faces radiate at the temperatures of `evaluate_T`, divided by `1 + z` -/
theorem C96_disk_partial {k : Consts} (hk : k.Pos) (hs : StefanBoltzmann k) {z M_BH m_dot R_in R_out d_L mu_s : ℝ}
    (hz : 0 ≤ z) (hM : 0 ≤ M_BH) (hm : 0 ≤ m_dot) (h0 : 0 < R_in) (h1 : R_in ≤ R_out) :
    flux (fun nu => multiTSed k nu z M_BH m_dot R_in R_out d_L mu_s)
      = mu_s * gridPower k M_BH m_dot R_in R_out / (2 * Real.pi * d_L ^ 2) / (1 + z) := by
  have hpi := Real.pi_pos
  have hz' : 0 < 1 + z := by linarith
  have hT : ∀ R ∈ linspace R_in R_out 100, 0 ≤ T k R M_BH m_dot R_in := by
    intro R hR
    have hb := linspace_mem h1 (by norm_num) hR
    have := hk.G; have := hk.sigma_sb
    have hR0 : 0 < R := lt_of_lt_of_le h0 hb.1
    refine Real.rpow_nonneg (div_nonneg (mul_nonneg (by positivity) ?_) (by positivity)) _
    have : √(R_in / R) ≤ 1 := Real.sqrt_le_one.2 ((div_le_one hR0).2 hb.1)
    linarith
  have hI : ∀ R ∈ linspace R_in R_out 100,
      IntegrableOn (fun nu => R / d_L ^ 2 * planck k (nu * (1 + z)) (T k R M_BH m_dot R_in)) (Ioi 0) :=
    fun R hR => (integral_planck_law hk hs (hT R hR) hz').1.const_mul _
  unfold flux
  rw [setIntegral_congr_fun (g := fun nu => mu_s * (2 * Real.pi) * Verif.over trapz (linspace R_in R_out 100) fun R =>
      R / d_L ^ 2 * planck k (nu * (1 + z)) (T k R M_BH m_dot R_in)) measurableSet_Ioi (fun nu hnu => ?_), integral_const_mul,
    (integral_trapz hI).2, over_congr (g := fun R => 1 / (4 * Real.pi ^ 2 * d_L ^ 2 * (1 + z))
      * (2 * (2 * Real.pi * R) * (k.sigma_sb * T k R M_BH m_dot R_in ^ 4))) fun R hR => ?_, over_scale homogeneous_trapz]
  · unfold gridPower
    generalize Verif.over trapz _ _ = P
    rcases eq_or_ne d_L 0 with rfl | hd
    · simp
    · field_simp
      ring
  · rw [integral_const_mul, (integral_planck_law hk hs (hT R hR) hz').2]
    rcases eq_or_ne d_L 0 with rfl | hd
    · simp
    · field_simp
      ring
  · have : (0 : ℝ) < nu := hnu
    simp only [multiTSed]
    field_simp

end SSDisk

/-- constants obeying the law -/
def lawful : Consts := { (⟨1, 1, 1, 1, 1, 1, 1, 1, 1, 1⟩ : Consts) with sigma_sb := 2 * Real.pi ^ 5 / 15 }

theorem lawful_ok : lawful.Pos ∧ StefanBoltzmann lawful := by
  have := Real.pi_pos
  refine ⟨?_, by simp [StefanBoltzmann, lawful]⟩
  constructor <;> simp only [lawful] <;> positivity

/-- a torus at redshift 1 shows half of its luminosity -/
example : 4 * Real.pi * 3 ^ 2 * flux (fun nu => (DT.new 10 (1 / 2) 1 (some 1)).sedFlux lawful nu 1 3) = 5 / 2 := by
  have hpi := Real.pi_pos
  rw [DT.C96_torus_partial lawful_ok.1 lawful_ok.2 _ (by norm_num) (by norm_num [DT.new]) (by norm_num [DT.new, DT.radius])]
  simp only [DT.new]
  field_simp
  norm_num

/-- and all of it nearby -/
example : 4 * Real.pi * 3 ^ 2 * flux (fun nu => (DT.new 10 (1 / 2) 1 (some 1)).sedFlux lawful nu 0 3) = 1 / 2 * 10 :=
  DT.C96_torus lawful_ok.1 lawful_ok.2 _ (by norm_num [DT.new]) (by norm_num [DT.new, DT.radius]) (by norm_num)

/-- a disk seen at 60 degrees -/
example : flux (fun nu => SSDisk.multiTSed lawful nu 0 1 1 6 100 1 (1 / 2))
    = 1 / 2 * SSDisk.gridPower lawful 1 1 6 100 / (2 * Real.pi * 1 ^ 2) / (1 + 0) :=
  SSDisk.C96_disk_partial lawful_ok.1 lawful_ok.2 le_rfl (by norm_num) (by norm_num) (by norm_num) (by norm_num)

end Verif.Targets
