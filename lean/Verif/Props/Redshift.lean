import Verif.Props.Absorption
import Verif.Props.Compton
import Verif.Props.Disk

/-
C75 redshift of the jet emission and of the opacities: at a fixed luminosity distance they depend on the observed
frequency and on the redshift only through the frequency `nu (1+z)` at the source.
C77 redshift of the thermal emission.
-/

namespace Verif

open MathUtils Spectra

/-- `Blob` moved to redshift 0 with the luminosity distance kept -/
def Region.Blob.atRest (b : Region.Blob) : Region.Blob := { b with z := 0 }

theorem nuToEps_rest (k : Consts) (nu z δ : ℝ) : nuToEps k nu z δ = nuToEps k (nu * (1 + z)) 0 δ := by
  unfold nuToEps; ring

theorem nuToEpsP_rest (k : Consts) (nu z δ : ℝ) : nuToEpsP k nu z δ = nuToEpsP k (nu * (1 + z)) 0 δ := by
  unfold nuToEpsP; ring

namespace Synchrotron

variable {k : Consts} {I : List ℝ → List ℝ → ℝ} {nu z d_L δ B R_b : ℝ} {d : Dist}

/-- C75: synchrotron emission, with and without self-absorption -/
theorem C75_synchrotron (ssa : Bool) (gamma : List ℝ) :
    sedFlux k I ssa nu z d_L δ B R_b d gamma = sedFlux k I ssa (nu * (1 + z)) 0 d_L δ B R_b d gamma := by
  unfold sedFlux sedThin tauSSA
  rw [nuToEps_rest]

/-- C75: the approximation of monochromatic emission -/
theorem C75_synchrotron_delta : sedFluxDelta k nu z d_L δ B R_b d = sedFluxDelta k (nu * (1 + z)) 0 d_L δ B R_b d := by
  unfold sedFluxDelta
  rw [nuToEps_rest]

/-- C75: proton synchrotron emission -/
theorem C75_proton (gamma : List ℝ) :
    sedFluxProton k I nu z d_L δ B R_b d gamma = sedFluxProton k I (nu * (1 + z)) 0 d_L δ B R_b d gamma := by
  unfold sedFluxProton
  rw [nuToEpsP_rest]

end Synchrotron

namespace Compton

open Region Targets Kernels

/-- C75: external Compton emission on any target -/
theorem C75_external (k : Consts) (a : EC) (nu : ℝ) :
    a.sedFlux k nu = EC.sedFlux k { a with blob := a.blob.atRest } (nu * (1 + a.blob.z)) := by
  unfold EC.sedFlux Blob.atRest
  dsimp only
  cases a.target <;> simp only [isoMono, psBehindJet, ssDisk, blr, dt, nuToEps_rest k nu a.blob.z] <;> rfl

/-- the self-Compton SED with an arbitrary grid of target frequencies (the code has a fixed one) -/
noncomputable def sscSedOn (grid : List ℝ) (k : Consts) (integrator : List ℝ → List ℝ → ℝ) (ssa : Bool)
    (nu z d_L delta_D B R_b : ℝ) (n_e : Dist) (gamma : List ℝ) : ℝ :=
  let epsilon := fun nu => nuToEps k nu z delta_D
  let epsilon_s := nuToEps k nu z delta_D
  let u_synch := fun nu => uPhSynchDiff k R_b d_L delta_D (epsilon nu)
    (Synchrotron.sedFlux k integrator ssa nu z d_L delta_D B R_b n_e gamma)
  let gamma1 := n_e.afterCall gamma
  let gamma2 := if ssa then n_e.afterSSA gamma1 else gamma1
  let gamma3 := n_e.afterCall gamma2
  let V_b := Synchrotron.volume R_b
  let integral_gamma := fun nu => over integrator gamma3 fun g =>
    u_synch nu / epsilon nu ^ 2 * (V_b * n_e.call g) / g ^ 2 * isotropicKernel g (epsilon nu) epsilon_s
  let integral_epsilon := integrator (grid.map integral_gamma) (grid.map epsilon)
  let emissivity := 3 / 4 * k.c * k.sigma_T * epsilon_s ^ 2 * integral_epsilon
  let prefactor := delta_D ^ 4 / (4 * Real.pi * d_L ^ 2)
  prefactor * emissivity

theorem sscSed_eq_on (k : Consts) (I : List ℝ → List ℝ → ℝ) (ssa : Bool) (nu z d_L δ B R_b : ℝ) (d : Dist)
    (gamma : List ℝ) : sscSed k I ssa nu z d_L δ B R_b d gamma = sscSedOn nuToIntegrate k I ssa nu z d_L δ B R_b d gamma :=
  rfl

theorem sscSedOn_rest (grid : List ℝ) (k : Consts) (I : List ℝ → List ℝ → ℝ) (ssa : Bool) (nu z d_L δ B R_b : ℝ)
    (d : Dist) (gamma : List ℝ) :
    sscSedOn grid k I ssa nu z d_L δ B R_b d gamma
      = sscSedOn (grid.map (· * (1 + z))) k I ssa (nu * (1 + z)) 0 d_L δ B R_b d gamma := by
  unfold sscSedOn
  dsimp only
  simp only [List.map_map, Function.comp_def, ← nuToEps_rest, ← Synchrotron.C75_synchrotron]

/-- C75: self-Compton emission, up to the grid of target frequencies: the code integrates over a fixed range of
observed frequencies, so the redshifted source is integrated on the grid stretched by `1+z` -/
theorem C75_self_compton (k : Consts) (I : List ℝ → List ℝ → ℝ) (ssa : Bool) (nu z d_L δ B R_b : ℝ) (d : Dist)
    (gamma : List ℝ) :
    sscSed k I ssa nu z d_L δ B R_b d gamma
      = sscSedOn (nuToIntegrate.map (· * (1 + z))) k I ssa (nu * (1 + z)) 0 d_L δ B R_b d gamma := by
  rw [sscSed_eq_on, sscSedOn_rest]

end Compton

namespace Absorption

open Region Targets

/-- C75: opacities of the external targets, on the axis and off it -/
theorem C75_opacity (k : Consts) (a : Abs) (ht : ∀ b, a.target ≠ .blob b) (nu : ℝ) :
    tau k a nu = tau k { a with z := 0 } (nu * (1 + a.z)) := by
  unfold tau
  cases h : a.target with
  | blob b => exact absurd h (ht b)
  | _ => simp only [tauPS, tauPSMuS, tauDisk, tauBLR, tauBLRMuS, tauDT, tauDTMuS, nuToEps_rest k nu a.z]

/-- C75: the opacity of the blob's own synchrotron photons -/
theorem C75_opacity_synchrotron (k : Consts) {b : Blob} (hz : 1 + b.z ≠ 0) (nu : ℝ) (n : ℕ) (margin : ℝ) :
    tauSynch k b nu n margin = tauSynch k b.atRest (nu * (1 + b.z)) n margin := by
  have h1 : ∀ x, x * b.delta_D / (1 + b.z) * (1 + b.z) = x * b.delta_D := fun x => div_mul_cancel₀ _ hz
  have hs : synchFrequencies k b.atRest n margin = synchFrequencies k b n margin := rfl
  unfold tauSynch
  dsimp only
  rw [hs]
  have hg : b.atRest.gamma_e = b.gamma_e := rfl
  have e1 : ∀ l : List ℝ, (l.map fun nu => nu * b.delta_D / (1 + b.z)).map (fun nu => nuToEps k nu b.z b.delta_D)
      = (l.map fun nu => nu * b.atRest.delta_D / (1 + b.atRest.z)).map
        (fun nu => nuToEps k nu b.atRest.z b.atRest.delta_D) := by
    intro l
    rw [List.map_map, List.map_map]
    refine List.map_congr_left fun x _ => ?_
    simp only [Function.comp_apply, Blob.atRest, add_zero, div_one]
    rw [nuToEps_rest, h1]
  have e2 : ∀ l : List ℝ, (l.map fun nu => nu * b.delta_D / (1 + b.z)).map (fun nu =>
        Synchrotron.sedFlux k trapz true nu b.z b.d_L b.delta_D b.B b.R_b b.n_e b.gamma_e)
      = (l.map fun nu => nu * b.atRest.delta_D / (1 + b.atRest.z)).map (fun nu =>
        Synchrotron.sedFlux k trapz true nu b.atRest.z b.atRest.d_L b.atRest.delta_D b.atRest.B b.atRest.R_b b.atRest.n_e
          b.atRest.gamma_e) := by
    intro l
    rw [List.map_map, List.map_map]
    refine List.map_congr_left fun x _ => ?_
    rw [hg]
    simp only [Function.comp_apply, Blob.atRest, add_zero, div_one]
    rw [Synchrotron.C75_synchrotron, h1]
  rw [e1, e2, nuToEps_rest k nu b.z]
  rfl

end Absorption

/-! ### C77 -/

namespace Targets

/-- C77: the SED that the redshift of the frequencies asks for, divided by `1+z`: the unnormalised disk -/
theorem C77_disk_partial (k : Consts) {nu z M_BH m_dot R_in R_out d_L mu_s : ℝ} (hz : 0 < 1 + z) :
    SSDisk.multiTSed k nu z M_BH m_dot R_in R_out d_L mu_s
      = SSDisk.multiTSed k (nu * (1 + z)) 0 M_BH m_dot R_in R_out d_L mu_s / (1 + z) := by
  unfold SSDisk.multiTSed
  simp only [add_zero, mul_one]
  field_simp

/-- the normalised disk SED with an arbitrary grid of frequencies for the normalisation (the code has a fixed one) -/
noncomputable def SSDisk.multiTNormSedOn (grid : List ℝ) (k : Consts)
    (nu z L_disk M_BH m_dot R_in R_out d_L mu_s : ℝ) : ℝ :=
  let F_nu_norm := grid.map fun nu => SSDisk.multiTSed k nu z M_BH m_dot R_in R_out d_L mu_s / nu
  let A := 4 * Real.pi * d_L ^ 2
  let L := 2 * (trapz F_nu_norm grid * A)
  L_disk / L * SSDisk.multiTSed k nu z M_BH m_dot R_in R_out d_L mu_s

/-- stretching the grid stretches the integral -/
theorem trapz_stretch (c : ℝ) (f : ℝ → ℝ) (grid : List ℝ) :
    trapz ((grid.map (· * c)).map f) (grid.map (· * c)) = c * trapz (grid.map fun x => f (x * c)) grid := by
  induction grid with
  | nil => simp [trapz]
  | cons x l ih =>
    cases l with
    | nil => simp [trapz]
    | cons y l =>
      simp only [List.map_cons, trapz] at ih ⊢
      rw [ih]
      ring

/-- C77: after normalisation the factor `1+z` is gone: the disk SED depends on `nu (1+z)`, up to the grid on which
the luminosity is computed -/
theorem C77_disk_normalised (k : Consts) {nu z L_disk M_BH m_dot R_in R_out d_L mu_s : ℝ} (hz : 0 < 1 + z) :
    SSDisk.multiTNormSed k nu z L_disk M_BH m_dot R_in R_out d_L mu_s
      = SSDisk.multiTNormSedOn (SSDisk.nuGrid.map (· * (1 + z))) k (nu * (1 + z)) 0 L_disk M_BH m_dot R_in R_out d_L
          mu_s := by
  unfold SSDisk.multiTNormSed SSDisk.multiTLum SSDisk.multiTNormSedOn
  dsimp only
  rw [trapz_stretch]
  have e : ∀ x, SSDisk.multiTSed k x z M_BH m_dot R_in R_out d_L mu_s / x
      = SSDisk.multiTSed k (x * (1 + z)) 0 M_BH m_dot R_in R_out d_L mu_s / (x * (1 + z)) := by
    intro x
    rw [C77_disk_partial k hz, div_div, mul_comm x]
  simp only [← e]
  rw [C77_disk_partial k (nu := nu) hz]
  generalize trapz _ _ = J
  generalize SSDisk.multiTSed k (nu * (1 + z)) 0 M_BH m_dot R_in R_out d_L mu_s = S
  generalize 1 + z = w
  ring

/-- C77: the SED of the torus, in spite of its normalisation, is `1+z` times too small: it is the SED at `nu (1+z)` divided
by `1+z` -/
theorem C77_torus_partial (k : Consts) (t : DT) {nu z d_L : ℝ} (hz : 0 < 1 + z) :
    t.sedFlux k nu z d_L = t.sedFlux k (nu * (1 + z)) 0 d_L / (1 + z) := by
  unfold DT.sedFlux DT.bbNormSed DT.bbSed
  simp only [add_zero, mul_one]
  field_simp

theorem planck_pos {k : Consts} (hk : k.Pos) {nu T : ℝ} (hn : 0 < nu) (hT : 0 < T) : 0 < planck k nu T := by
  unfold planck
  have := hk.h; have := hk.c; have := hk.k_B
  have : 1 < Real.exp (k.h * nu / (k.k_B * T)) := Real.one_lt_exp_iff.2 (by positivity)
  have : 0 < Real.exp (k.h * nu / (k.k_B * T)) - 1 := by linarith
  positivity

/-- C77 is false of the torus for every redshift other than 0: the SED at `nu` is not the SED at the source
frequency `nu (1+z)` -/
theorem C77_torus_violated {k : Consts} (hk : k.Pos) {t : DT} (hx : 0 < t.xi_dt) (hL : 0 < t.L_disk) (hT : 0 < t.T_dt)
    (hR : 0 < t.R_dt) {nu z d_L : ℝ} (hn : 0 < nu) (hz : 0 < z) (hd : 0 < d_L) :
    t.sedFlux k nu z d_L < t.sedFlux k (nu * (1 + z)) 0 d_L := by
  have hz' : 0 < 1 + z := by linarith
  rw [C77_torus_partial k t hz']
  have hpos : 0 < t.sedFlux k (nu * (1 + z)) 0 d_L := by
    unfold DT.sedFlux DT.bbNormSed DT.bbSed
    have := planck_pos hk (nu := nu * (1 + z) * (1 + 0)) (by positivity) hT
    have := hk.sigma_sb
    positivity
  rw [div_lt_iff₀ hz']
  nlinarith

/-- a torus and a redshift meeting the hypotheses -/
example : ∃ t : DT, DT.sedFlux ⟨1, 1, 1, 1, 1, 1, 1, 1, 1, 1⟩ t 1 1 1 < DT.sedFlux ⟨1, 1, 1, 1, 1, 1, 1, 1, 1, 1⟩ t (1 * (1 + 1)) 0 1 :=
  ⟨DT.new 1 1 1 (some 1), C77_torus_violated (by constructor <;> norm_num) (by norm_num [DT.new]) (by norm_num [DT.new])
    (by norm_num [DT.new]) (by norm_num [DT.new, DT.radius]) (by norm_num) (by norm_num) (by norm_num)⟩

end Targets

/-- the redshift matters: two blobs at the same distance and different redshifts have the same SED at different observed
frequencies -/
example (k : Consts) (gamma : List ℝ) (d : Dist) :
    Synchrotron.sedFlux k trapz true 1 1 1 10 1 1 d gamma = Synchrotron.sedFlux k trapz true (1 / 2) 3 1 10 1 1 d gamma := by
  rw [Synchrotron.C75_synchrotron, Synchrotron.C75_synchrotron (nu := 1 / 2)]
  norm_num

end Verif
