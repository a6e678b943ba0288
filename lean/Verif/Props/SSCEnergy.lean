import Verif.Props.IsotropicEnergy
import Verif.Props.SynchEnergy
import Verif.Props.EnergyLoss
import Verif.Props.Quadrature

/-
C107: the light of synchrotron self-Compton carries what the electrons lose by scattering the synchrotron photons, and
the energy density of these photons is the one of `u_ph_synch`.
-/

namespace Verif.Compton

open MathUtils Spectra Geometry Kernels Region MeasureTheory Synchrotron
open Absorption (BlobOK)

variable {m : ℝ}

/-- the integral of the energy over the kernel of SSC -/
theorem weighted_isotropic {g ε κ : ℝ} (hg : 1 ≤ g) (hr : ftiny ≤ 1 / (4 * g ^ 2)) (he : 0 < ε) (hκ : 0 < κ)
    (hm : g ≤ κ * m) :
    Counted m (fun nu => nu * isotropicKernel g ε (κ * nu))
      (1 / κ ^ 2 * (16 / 9 * g ^ 4 * ε ^ 2 * (isoLoss (4 * g * ε) - omitted g ε))) := by
  have h0 : 0 < g := by linarith
  obtain ⟨hi, hv, _⟩ := C107_kernel hg hr he
  obtain ⟨i, e⟩ := on_pieces (f := fun s => s * isotropicKernel g ε s) h0.le hm hi (fun _ _ _ => rfl)
    (fun s hs _ => by rw [C40_energy h0 he hs.le, mul_zero]) rfl
  have hf : ∀ nu, nu * isotropicKernel g ε (κ * nu) = 1 / κ * (κ * nu * isotropicKernel g ε (κ * nu)) := by
    intro nu; field_simp
  simp only [hf]
  refine ⟨?_, ?_⟩
  · have := i.comp_mul_left (c := κ)
    refine IntervalIntegrable.const_mul ?_ _
    simpa [hκ.ne'] using this
  · rw [intervalIntegral.integral_const_mul,
      intervalIntegral.integral_comp_mul_left (fun s => s * isotropicKernel g ε s) hκ.ne', mul_zero, e, smul_eq_mul]
    have e2 : ∫ s in (0)..g, s * isotropicKernel g ε s
        = 4 * g ^ 2 * ε / 3 * (3 / (4 * g ^ 2 * ε) * ∫ s in (0)..g, s * isotropicKernel g ε s) := by
      generalize ∫ s in (0)..g, s * isotropicKernel g ε s = X
      field_simp
    rw [e2, hv]
    field_simp
    ring

/-- sums in either order -/
theorem trapz_over {nus eps grid : List ℝ} (f : ℝ → ℝ → ℝ) :
    trapz (nus.map fun nu => Verif.over trapz grid (f nu)) eps
      = Verif.over trapz grid fun g => trapz (nus.map fun nu => f nu g) eps := by
  have zero : Verif.over trapz grid (fun _ => 0) = 0 := by
    have := over_trapz_mul grid 0 (fun _ => 0)
    simpa using this
  have add : ∀ a b : ℝ → ℝ, Verif.over trapz grid (fun g => a g + b g)
      = Verif.over trapz grid a + Verif.over trapz grid b := by
    intro a b
    unfold Verif.over
    have key : ∀ l xs : List ℝ, trapz (l.map fun g => a g + b g) xs = trapz (l.map a) xs + trapz (l.map b) xs := by
      intro l
      induction l with
      | nil => intro xs; simp [trapz]
      | cons x l ih =>
        intro xs
        match l, xs with
        | [], [] => simp [trapz]
        | [], _ :: _ => simp [trapz]
        | _ :: _, [] => simp [trapz]
        | _ :: _, [_] => simp [trapz]
        | x' :: l, u :: u' :: xs =>
          have := ih (u' :: xs)
          simp only [List.map_cons, trapz] at this ⊢
          rw [this]
          ring
    exact key grid grid
  induction nus generalizing eps with
  | nil => simpa [trapz] using zero.symm
  | cons x nus ih =>
    match nus, eps with
    | [], [] => simpa [trapz] using zero.symm
    | [], _ :: _ => simpa [trapz] using zero.symm
    | _ :: _, [] => simpa [trapz] using zero.symm
    | _ :: _, [_] => simpa [trapz] using zero.symm
    | x' :: nus, u :: u' :: eps =>
      have h := ih (eps := u' :: eps)
      simp only [List.map_cons, trapz] at h ⊢
      have e : (u' - u) * (Verif.over trapz grid (f x) + Verif.over trapz grid (f x')) / 2
          = Verif.over trapz grid fun g => (u' - u) * (f x g + f x' g) / 2 := by
        have h1 := over_trapz_mul grid ((u' - u) / 2) (fun g => f x g + f x' g)
        rw [add] at h1
        rw [mul_div_right_comm, ← h1]
        congr 1
        funext g
        ring
      rw [h, e, ← add]

/-- what an electron loses per unit time by scattering photons from all directions whose energy density is `u` by photon
energy, summed over photon energies as the code does; photons which gain no energy are left out -/
noncomputable def scatterLoss (k : Consts) (nus : List ℝ) (u eps : ℝ → ℝ) (g : ℝ) : ℝ :=
  trapz (nus.map fun nu => 4 / 3 * k.sigma_T * k.c * g ^ 2 * (u nu * (isoLoss (4 * g * eps nu) - omitted g (eps nu))))
    (nus.map eps)

variable {k : Consts} {z d_L δ B R_b : ℝ} {d : Spectra.Dist} {gamma : List ℝ}

/-- the array of Lorentz factors as the calls before the last sum leave it -/
noncomputable def sscGrid (ssa : Bool) (d : Spectra.Dist) (gamma : List ℝ) : List ℝ :=
  d.afterCall (if ssa then d.afterSSA (d.afterCall gamma) else d.afterCall gamma)

/-- **C107** (SED).  The energy received through the SED of SSC is what the electrons lose to the synchrotron photons. -/
theorem C107_ssc (ssa : Bool) (hk : k.Pos) (hz : 0 ≤ z) (hδ : 0 < δ) (hm : 0 ≤ m)
    (hg : ∀ g ∈ sscGrid ssa d gamma, 1 ≤ g ∧ ftiny ≤ 1 / (4 * g ^ 2) ∧ g ≤ perNu k.m_e k z δ * m) :
    energyFlux m (fun nu => sscSed k trapz ssa nu z d_L δ B R_b d gamma)
      = δ ^ 4 / (4 * Real.pi * d_L ^ 2)
        * Verif.over trapz (sscGrid ssa d gamma) fun g =>
          (4 / 3 * Real.pi * R_b ^ 3) * d.call g
            * scatterLoss k nuToIntegrate
              (fun nu => uPhSynchDiff k R_b d_L δ (nuToEps k nu z δ) (sedFlux k trapz ssa nu z d_L δ B R_b d gamma))
              (fun nu => nuToEps k nu z δ) g := by
  have hc := hk.c
  have hh := hk.h
  have hme := hk.m_e
  have hz1 : 0 < 1 + z := by linarith
  have hκ : 0 < perNu k.m_e k z δ := by unfold perNu; positivity
  set κ := perNu k.m_e k z δ
  set u : ℝ → ℝ := fun nu => uPhSynchDiff k R_b d_L δ (nuToEps k nu z δ) (sedFlux k trapz ssa nu z d_L δ B R_b d gamma)
    with hu
  set eps : ℝ → ℝ := fun nu => nuToEps k nu z δ with heps
  set grid := sscGrid ssa d gamma with hgrid
  have hp : ∀ nu ∈ nuToIntegrate, 0 < eps nu := fun nu hnu => nuToEps_pos hk (logspace_pos nu hnu) hz hδ
  have h1 : List.Forall₂ (Counted m)
      (nuToIntegrate.map fun nu' nu => nu * Verif.over trapz grid fun g =>
        u nu' / eps nu' ^ 2 * (volume R_b * d.call g) / g ^ 2 * isotropicKernel g (eps nu') (κ * nu))
      (nuToIntegrate.map fun nu' => Verif.over trapz grid fun g =>
        u nu' / eps nu' ^ 2 * (volume R_b * d.call g) / g ^ 2
          * (1 / κ ^ 2 * (16 / 9 * g ^ 4 * eps nu' ^ 2 * (isoLoss (4 * g * eps nu') - omitted g (eps nu'))))) := by
    rw [List.forall₂_map_left_iff, List.forall₂_map_right_iff]
    refine List.forall₂_same.2 fun nu' hnu' => ?_
    refine weighted_over fun g hg' => ?_
    obtain ⟨g1, g2, g3⟩ := hg g hg'
    have h := (weighted_isotropic g1 g2 (hp nu' hnu') hκ g3).const_mul
      (u nu' / eps nu' ^ 2 * (volume R_b * d.call g) / g ^ 2)
    refine ⟨?_, ?_⟩
    · refine h.1.congr ?_
      intro nu _
      ring
    · rw [← h.2]
      refine intervalIntegral.integral_congr fun nu _ => ?_
      ring
  have h2 := counted_trapz h1 (nuToIntegrate.map eps)
  have hT := h2.congr hm (G := fun nu => nu * trapz (nuToIntegrate.map fun nu' => Verif.over trapz grid fun g =>
        u nu' / eps nu' ^ 2 * (volume R_b * d.call g) / g ^ 2 * isotropicKernel g (eps nu') (κ * nu))
        (nuToIntegrate.map eps)) (fun nu _ _ => by
      rw [← C33_trapz_scale, List.map_map, List.map_map]
      rfl)
  have h3 := energy_of (κ := κ) (P := δ ^ 4 / (4 * Real.pi * d_L ^ 2) * (3 / 4 * k.c * k.sigma_T)) hm hT
    (sed := fun nu => sscSed k trapz ssa nu z d_L δ B R_b d gamma) (fun nu => by
      rw [← nuToEps_perNu]
      unfold sscSed
      simp only [mul_assoc]
      rfl)
  rw [h3, trapz_over, mul_assoc (δ ^ 4 / (4 * Real.pi * d_L ^ 2)), mul_assoc (δ ^ 4 / (4 * Real.pi * d_L ^ 2)),
    over_mul']
  congr 1
  refine over_congr' fun g hg' => ?_
  have g0 : 0 < g := by linarith [(hg g hg').1]
  unfold scatterLoss
  rw [← C33_trapz_scale, ← C33_trapz_scale, List.map_map, List.map_map]
  congr 1
  refine List.map_congr_left fun nu hnu => ?_
  have e0 := (hp nu hnu).ne'
  simp only [Function.comp]
  unfold Synchrotron.volume
  field_simp
  ring

/-! ### the cooling rate given to the time evolution -/

theorem trapz_le {nus : List ℝ} {f f' eps : ℝ → ℝ} (hc : (nus.map eps).IsChain (· ≤ ·)) (h : ∀ nu ∈ nus, f nu ≤ f' nu) :
    trapz (nus.map f) (nus.map eps) ≤ trapz (nus.map f') (nus.map eps) :=
  trapz_mono nus f f' eps hc h

/-- bound of the part left out, relative to Thomson's losses -/
noncomputable def omittedBound (g ε : ℝ) : ℝ := 9 / (32 * g ^ 4) * (1 + ε / (2 * g))

/-- **C107** (limit of Thomson).  The losses are at most those of Thomson, and close to them for soft photons. -/
theorem C107_thomson {nus : List ℝ} {u eps : ℝ → ℝ} {g : ℝ} (hk : k.Pos) (hg : 1 ≤ g) (hr : ftiny ≤ 1 / (4 * g ^ 2))
    (hc : (nus.map eps).IsChain (· ≤ ·)) (hp : ∀ nu ∈ nus, 0 < eps nu) (hu : ∀ nu ∈ nus, 0 ≤ u nu) :
    scatterLoss k nus u eps g ≤ 4 / 3 * k.sigma_T * k.c * g ^ 2 * trapz (nus.map u) (nus.map eps)
    ∧ 4 / 3 * k.sigma_T * k.c * g ^ 2
        * trapz (nus.map fun nu => u nu * (1 / (1 + 4 * g * eps nu) ^ 3 - omittedBound g (eps nu))) (nus.map eps)
      ≤ scatterLoss k nus u eps g := by
  have hs := hk.sigma_T
  have hcc := hk.c
  have h0 : 0 < g := by linarith
  have hP : 0 ≤ 4 / 3 * k.sigma_T * k.c * g ^ 2 := by positivity
  unfold scatterLoss
  rw [← C33_trapz_scale, ← C33_trapz_scale, List.map_map, List.map_map]
  constructor
  · refine trapz_le hc fun nu hnu => ?_
    obtain ⟨_, _, o1, o2⟩ := C107_kernel hg hr (hp nu hnu)
    have hb : 0 < 4 * g * eps nu := mul_pos (by positivity) (hp nu hnu)
    have hi := C105_isotropic_bounds hb
    refine mul_le_mul_of_nonneg_left ?_ hP
    exact mul_le_of_le_one_right (hu nu hnu) (by linarith [hi.2])
  · refine trapz_le hc fun nu hnu => ?_
    obtain ⟨_, _, o1, o2⟩ := C107_kernel hg hr (hp nu hnu)
    have hb : 0 < 4 * g * eps nu := mul_pos (by positivity) (hp nu hnu)
    have hi := C105_isotropic_bounds hb
    refine mul_le_mul_of_nonneg_left (mul_le_mul_of_nonneg_left ?_ (hu nu hnu)) hP
    unfold omittedBound
    linarith [hi.1]

/-- **C107** (blob).  The SED of SSC of a blob: the energy received is what its electrons lose to its synchrotron photons,
and no more than in Thomson's limit. -/
theorem C107_blob {b : Blob} (h : BlobOK k b) (h1 : 1 ≤ b.n_e.gmin) (hr : ftiny ≤ 1 / (4 * b.n_e.gmax ^ 2)) (hm : 0 ≤ m)
    (hM : b.n_e.gmax ≤ perNu k.m_e k b.z b.delta_D * m) :
    let u := fun nu => uPhSynchDiff k b.R_b b.d_L b.delta_D (nuToEps k nu b.z b.delta_D)
      (sedFlux k trapz false nu b.z b.d_L b.delta_D b.B b.R_b b.n_e b.gamma_e)
    let eps := fun nu => nuToEps k nu b.z b.delta_D
    let received := energyFlux m (fun nu => sscSed k trapz false nu b.z b.d_L b.delta_D b.B b.R_b b.n_e b.gamma_e)
    received = b.delta_D ^ 4 / (4 * Real.pi * b.d_L ^ 2)
        * Verif.over trapz b.gamma_e (fun g => (4 / 3 * Real.pi * b.R_b ^ 3) * b.n_e.call g
            * scatterLoss k nuToIntegrate u eps g)
    ∧ received ≤ b.delta_D ^ 4 / (4 * Real.pi * b.d_L ^ 2)
        * Verif.over trapz b.gamma_e (fun g => (4 / 3 * Real.pi * b.R_b ^ 3) * b.n_e.call g
            * (4 / 3 * k.sigma_T * k.c * g ^ 2 * trapz (nuToIntegrate.map u) (nuToIntegrate.map eps))) := by
  intro u eps received
  have hgrid : sscGrid false b.n_e b.gamma_e = b.gamma_e := by
    simp only [sscGrid, Bool.false_eq_true, if_false, h.grid.afterCall]
  have hmem : ∀ g ∈ b.gamma_e, 1 ≤ g ∧ ftiny ≤ 1 / (4 * g ^ 2) ∧ g ≤ perNu k.m_e k b.z b.delta_D * m := by
    intro g hg
    obtain ⟨g1, g2⟩ := logspace_mem_Icc h.grid.pos h.grid.lt h.grid.size hg
    have g0 : 0 < g := h.grid.pos.trans_le g1
    refine ⟨h1.trans g1, hr.trans ?_, g2.trans hM⟩
    exact one_div_le_one_div_of_le (by positivity) (by gcongr)
  have e : received = _ := C107_ssc (d_L := b.d_L) (B := b.B) (R_b := b.R_b) false h.consts h.z h.delta hm
    (d := b.n_e) (gamma := b.gamma_e) (by rw [hgrid]; exact hmem)
  rw [hgrid] at e
  refine ⟨e, ?_⟩
  rw [e]
  have hR := h.R_b
  have hπ := Real.pi_pos
  refine mul_le_mul_of_nonneg_left ?_ (by positivity)
  have hid : b.gamma_e.map (fun g => g) = b.gamma_e := List.map_id' _
  have := trapz_le (nus := b.gamma_e) (eps := fun g => g)
    (f := fun g => (4 / 3 * Real.pi * b.R_b ^ 3) * b.n_e.call g * scatterLoss k nuToIntegrate u eps g)
    (f' := fun g => (4 / 3 * Real.pi * b.R_b ^ 3) * b.n_e.call g
      * (4 / 3 * k.sigma_T * k.c * g ^ 2 * trapz (nuToIntegrate.map u) (nuToIntegrate.map eps)))
    (by rw [hid]; exact h.grid.chain) (fun g hg => by
      obtain ⟨g1, g2, _⟩ := hmem g hg
      refine mul_le_mul_of_nonneg_left ?_ (mul_nonneg (by positivity) (Spectra.C23_nonneg h.dist g))
      refine (C107_thomson h.consts g1 g2 (epsilon_chain h)
        (fun nu hnu => nuToEps_pos h.consts (logspace_pos nu hnu) h.z h.delta) fun nu hnu => ?_).1
      have hn := logspace_pos nu hnu
      have hs := C51_nonneg (h.physical hn) nonneg_trapz false (gamma := b.gamma_e)
        (by rw [h.grid.afterCall]; exact h.grid.chain) (by rw [h.grid.afterCall]; exact b.gamma_e_pos)
      have := nuToEps_pos h.consts hn h.z h.delta
      have := h.consts.c; have := h.delta; have := h.d_L
      simp only [u]
      unfold uPhSynchDiff
      positivity)
  rwa [hid] at this

theorem factor_close {b : ℝ} (hb : 0 < b) : |fKN b - isoLoss b| ≤ min (3 * b) 1 := by
  have h1 := C55_factor hb.le
  have h2 := C105_isotropic_bounds hb
  have h3 : 0 ≤ isoLoss b := le_trans (by positivity) h2.1
  have h4 : |fKN b - isoLoss b| ≤ 1 := by
    rw [abs_le]; exact ⟨by linarith [h1.1, h2.2], by linarith [h1.2]⟩
  refine le_min ?_ h4
  rcases lt_or_ge b (10 ^ 4) with h | h
  · exact C105_cooling hb h
  · have : (1 : ℝ) ≤ 3 * b := by norm_num at h; linarith
    linarith

/-- **C107** (cooling).  The rate given to the time evolution, and the energy in the light of SSC: they differ by the
approximation of Klein and Nishina's formula, which is good for soft photons, and by the photons left out. -/
theorem C107_cooling {b : Blob} (h : BlobOK k b) {g : ℝ} (hg : 1 ≤ g) (hr : ftiny ≤ 1 / (4 * g ^ 2)) :
    |scatterLoss k nuToIntegrate (uEpsilon k b) (fun nu => nuToEps k nu b.z b.delta_D) g - energyLossRate k b g|
      ≤ 4 / 3 * k.sigma_T * k.c * g ^ 2
        * trapz (nuToIntegrate.map fun nu => uEpsilon k b nu
            * (min (12 * g * nuToEps k nu b.z b.delta_D) 1 + omittedBound g (nuToEps k nu b.z b.delta_D)))
          (nuToIntegrate.map fun nu => nuToEps k nu b.z b.delta_D) := by
  have hs := h.consts.sigma_T
  have hcc := h.consts.c
  have h0 : 0 < g := by linarith
  have hc := epsilon_chain h
  have hp : ∀ nu ∈ nuToIntegrate, 0 < nuToEps k nu b.z b.delta_D :=
    fun nu hnu => nuToEps_pos h.consts (logspace_pos nu hnu) h.z h.delta
  have hu : ∀ nu ∈ nuToIntegrate, 0 ≤ uEpsilon k b nu := fun nu hnu => uEpsilon_nonneg h (logspace_pos nu hnu)
  set eps : ℝ → ℝ := fun nu => nuToEps k nu b.z b.delta_D with heps
  set P := 4 / 3 * k.sigma_T * k.c * g ^ 2 with hP
  have hP0 : 0 ≤ P := by positivity
  have e1 : energyLossRate k b g
      = trapz (nuToIntegrate.map fun nu => P * (fKN (4 * g * eps nu) * uEpsilon k b nu)) (nuToIntegrate.map eps) := by
    have := C33_trapz_scale P (nuToIntegrate.map fun nu => fKN (4 * g * eps nu) * uEpsilon k b nu) (nuToIntegrate.map eps)
    rw [List.map_map] at this
    unfold energyLossRate
    simp only
    rw [mul_right_comm (4 / 3 * k.sigma_T * k.c) _ (g ^ 2), ← hP]
    exact this.symm
  have e2 : P * trapz (nuToIntegrate.map fun nu => uEpsilon k b nu * (min (12 * g * eps nu) 1 + omittedBound g (eps nu)))
        (nuToIntegrate.map eps)
      = trapz (nuToIntegrate.map fun nu => P * (uEpsilon k b nu * (min (12 * g * eps nu) 1 + omittedBound g (eps nu))))
        (nuToIntegrate.map eps) := by
    rw [← C33_trapz_scale, List.map_map]; rfl
  have key : ∀ nu ∈ nuToIntegrate, |isoLoss (4 * g * eps nu) - omitted g (eps nu) - fKN (4 * g * eps nu)|
      ≤ min (12 * g * eps nu) 1 + omittedBound g (eps nu) := by
    intro nu hnu
    obtain ⟨_, _, o1, o2⟩ := C107_kernel hg hr (hp nu hnu)
    have hb : 0 < 4 * g * eps nu := mul_pos (by positivity) (hp nu hnu)
    have hf := factor_close hb
    rw [show 3 * (4 * g * eps nu) = 12 * g * eps nu by ring, abs_le] at hf
    unfold omittedBound
    rw [abs_le]
    constructor <;> linarith [hf.1, hf.2]
  have add : ∀ f f' : ℝ → ℝ, trapz (nuToIntegrate.map fun nu => f nu + f' nu) (nuToIntegrate.map eps)
      = trapz (nuToIntegrate.map f) (nuToIntegrate.map eps) + trapz (nuToIntegrate.map f') (nuToIntegrate.map eps) := by
    intro f f'
    generalize nuToIntegrate.map eps = xs
    generalize nuToIntegrate = l
    induction l generalizing xs with
    | nil => simp [trapz]
    | cons x l ih =>
      match l, xs with
      | [], [] => simp [trapz]
      | [], _ :: _ => simp [trapz]
      | _ :: _, [] => simp [trapz]
      | _ :: _, [_] => simp [trapz]
      | x' :: l, u :: u' :: xs =>
        have := ih (u' :: xs)
        simp only [List.map_cons, trapz] at this ⊢
        rw [this]
        ring
  rw [e1, e2, abs_le]
  unfold scatterLoss
  constructor
  · have := trapz_le (f := fun nu => P * (fKN (4 * g * eps nu) * uEpsilon k b nu))
      (f' := fun nu => P * (uEpsilon k b nu * (isoLoss (4 * g * eps nu) - omitted g (eps nu)))
        + P * (uEpsilon k b nu * (min (12 * g * eps nu) 1 + omittedBound g (eps nu)))) hc (fun nu hnu => by
      have h1 := (abs_le.1 (key nu hnu)).1
      have h2 := mul_le_mul_of_nonneg_left h1 (mul_nonneg hP0 (hu nu hnu))
      linarith)
    rw [add] at this
    linarith
  · have := trapz_le (f := fun nu => P * (uEpsilon k b nu * (isoLoss (4 * g * eps nu) - omitted g (eps nu))))
      (f' := fun nu => P * (fKN (4 * g * eps nu) * uEpsilon k b nu)
        + P * (uEpsilon k b nu * (min (12 * g * eps nu) 1 + omittedBound g (eps nu)))) hc (fun nu hnu => by
      have h1 := (abs_le.1 (key nu hnu)).2
      have h2 := mul_le_mul_of_nonneg_left h1 (mul_nonneg hP0 (hu nu hnu))
      linarith)
    rw [add] at this
    linarith

/-! ### the photons in the blob -/

/-- **C107** (photons).  The spectrum of the synchrotron photons in the blob adds up to `u_ph_synch`, which the losses
in Thomson's limit use, but for the number of C106. -/
theorem C107_density {b : Blob} (h : BlobOK k b) (hσ : k.sigma_T = thomson k k.m_e) :
    (∫ ε in Set.Ioi 0, uPhSynchDiff k b.R_b b.d_L b.delta_D ε
        (sedFlux k trapz false (ε / perNu k.m_e k b.z b.delta_D) b.z b.d_L b.delta_D b.B b.R_b b.n_e b.gamma_e))
      = quality * b.u_ph_synch k := by
  have hcc := h.consts.c
  have hh := h.consts.h
  have hme := h.consts.m_e
  have hδ := h.delta
  have hd := h.d_L
  have hR := h.R_b
  have hz1 : 0 < 1 + b.z := by linarith [h.z]
  have hκ : 0 < perNu k.m_e k b.z b.delta_D := by unfold perNu; positivity
  set κ := perNu k.m_e k b.z b.delta_D
  set G : ℝ → ℝ := fun ε => uPhSynchDiff k b.R_b b.d_L b.delta_D ε
    (sedFlux k trapz false (ε / κ) b.z b.d_L b.delta_D b.B b.R_b b.n_e b.gamma_e) with hG
  have e1 : ∫ ε in Set.Ioi 0, G ε = κ * ∫ nu in Set.Ioi 0, G (κ * nu) := by
    rw [integral_comp_mul_left_Ioi G 0 hκ, mul_zero, smul_eq_mul, ← mul_assoc, mul_inv_cancel₀ hκ.ne', one_mul]
  have hpos : ∀ g ∈ b.n_e.afterCall b.gamma_e, 0 < g := by rw [h.grid.afterCall]; exact b.gamma_e_pos
  have hw := (whole_thin (k := k) (z := b.z) (d_L := b.d_L) (R_b := b.R_b) h.consts (by linarith [h.z]) hδ h.B hpos hσ).2
  rw [e1, ← integral_const_mul]
  have e2 : ∫ nu in Set.Ioi 0, κ * G (κ * nu)
      = ∫ nu in Set.Ioi 0, 9 * b.d_L ^ 2 / (4 * k.c * b.R_b ^ 2 * b.delta_D ^ 4)
        * (sedFlux k trapz false nu b.z b.d_L b.delta_D b.B b.R_b b.n_e b.gamma_e / nu) := by
    refine setIntegral_congr_fun measurableSet_Ioi fun nu hnu => ?_
    have h0 : nu ≠ 0 := (Set.mem_Ioi.1 hnu).ne'
    simp only [hG, mul_div_cancel_left₀ nu hκ.ne']
    unfold uPhSynchDiff
    field_simp
    ring
  rw [e2, integral_const_mul, hw, h.grid.afterCall]
  unfold Blob.u_ph_synch Blob.U_B
  rw [h.grid.evaluate, zipWith_mul_map]
  have e3 : trapz (b.gamma_e.map fun g => g ^ 2 * b.n_e.call g) b.gamma_e
      = Verif.over trapz b.gamma_e fun g => g ^ 2 * b.n_e.call g := rfl
  have e4 : (Verif.over trapz b.gamma_e fun g => (4 / 3 * Real.pi * b.R_b ^ 3) * b.n_e.call g
        * Synchrotron.energyLossRate k b.B g)
      = (4 / 3 * Real.pi * b.R_b ^ 3) * (4 / 3 * k.sigma_T * k.c * (b.B ^ 2 / (8 * Real.pi)))
        * Verif.over trapz b.gamma_e fun g => g ^ 2 * b.n_e.call g := by
    rw [over_mul']
    refine over_congr' fun g _ => ?_
    unfold Synchrotron.energyLossRate
    ring
  rw [e3, e4]
  generalize (Verif.over trapz b.gamma_e fun g => g ^ 2 * b.n_e.call g) = X
  have := Real.pi_pos
  field_simp
  ring

theorem ftiny_small {x : ℝ} (h0 : 0 < x) (h : x ≤ 2 ^ 24) : ftiny ≤ 1 / x := by
  have h1 : (2 : ℝ) ^ 24 ≤ 2 ^ 1022 := pow_le_pow_right₀ (by norm_num) (by norm_num)
  unfold ftiny
  exact one_div_le_one_div_of_le h0 (h.trans h1)

/-- the hypotheses are met: a blob with its losses, and all frequencies up to 10000 -/
example : BlobOK naturalConsts demoBlob ∧ naturalConsts.sigma_T = thomson naturalConsts naturalConsts.m_e
    ∧ (1 : ℝ) ≤ 100 ∧ ftiny ≤ 1 / (4 * (100 : ℝ) ^ 2)
    ∧ 1 ≤ demoBlob.n_e.gmin ∧ ftiny ≤ 1 / (4 * demoBlob.n_e.gmax ^ 2)
    ∧ demoBlob.n_e.gmax ≤ perNu naturalConsts.m_e naturalConsts demoBlob.z demoBlob.delta_D * 10000 := by
  refine ⟨⟨natural_physical.1.consts, demoBlob_good, ?_, ?_, ?_, ?_, ?_, ?_, ?_⟩, natural_physical.2, by norm_num,
    ftiny_small (by norm_num) (by norm_num), by norm_num [demoBlob, Dist.gmin],
    ftiny_small (by norm_num [demoBlob, Dist.gmax]) (by norm_num [demoBlob, Dist.gmax]),
    by norm_num [demoBlob, Dist.gmax, perNu, naturalConsts]⟩
  all_goals norm_num [demoBlob, Dist.Positive, Dist.NonEmpty]

end Verif.Compton
