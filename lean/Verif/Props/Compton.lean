import Verif.Props.Targets
import Verif.Props.EnergyLoss
import Verif.Props.Kernels

/- C53 (synchrotron self-Compton) and C54 (external Compton). -/

namespace Verif.Compton

open MathUtils Spectra Geometry Kernels Region Targets Absorption

variable {k : Consts} {I : List ℝ → List ℝ → ℝ}

/-! ### C53 -/

theorem uDiff_scale (k : Consts) (R_b d_L δ ε c sed : ℝ) :
    uPhSynchDiff k R_b d_L δ ε (c * sed) = c * uPhSynchDiff k R_b d_L δ ε sed := by
  unfold uPhSynchDiff
  ring

theorem uDiff_distance (k : Consts) (R_b d_L δ ε sed : ℝ) {s : ℝ} (hs : s ≠ 0) :
    uPhSynchDiff k R_b (s * d_L) δ ε (sed / s ^ 2) = uPhSynchDiff k R_b d_L δ ε sed := by
  unfold uPhSynchDiff
  have : 3 * (s * d_L) ^ 2 * (sed / s ^ 2) = 3 * d_L ^ 2 * sed := by field_simp
  dsimp only
  rw [this]

/-- C53: without self-absorption the SED is quadratic in the electron density -/
theorem C53_quadratic (hI : HomogeneousIntegrator I) (nu z d_L δ B R_b c : ℝ) (d : Dist) (gamma : List ℝ) :
    sscSed k I false nu z d_L δ B R_b (d.scale c) gamma = c ^ 2 * sscSed k I false nu z d_L δ B R_b d gamma := by
  unfold sscSed
  simp only [Dist.scale_afterCall, Dist.scale_call, Synchrotron.C51_linear hI, uDiff_scale, Bool.false_eq_true,
    if_false]
  have h1 : ∀ nu' : ℝ, (over I (d.afterCall (d.afterCall gamma)) fun g =>
        c * uPhSynchDiff k R_b d_L δ (nuToEps k nu' z δ) (Synchrotron.sedFlux k I false nu' z d_L δ B R_b d gamma)
          / nuToEps k nu' z δ ^ 2 * (Synchrotron.volume R_b * (c * d.call g)) / g ^ 2
          * isotropicKernel g (nuToEps k nu' z δ) (nuToEps k nu z δ))
      = c ^ 2 * over I (d.afterCall (d.afterCall gamma)) fun g =>
        uPhSynchDiff k R_b d_L δ (nuToEps k nu' z δ) (Synchrotron.sedFlux k I false nu' z d_L δ B R_b d gamma)
          / nuToEps k nu' z δ ^ 2 * (Synchrotron.volume R_b * d.call g) / g ^ 2
          * isotropicKernel g (nuToEps k nu' z δ) (nuToEps k nu z δ) := by
    intro nu'
    rw [← over_scale hI]
    apply over_congr
    intro g _
    ring
  simp only [h1]
  have h2 : ∀ f : ℝ → ℝ, nuToIntegrate.map (fun nu' => c ^ 2 * f nu') = (nuToIntegrate.map f).map (c ^ 2 * ·) := by
    intro f
    rw [List.map_map]
    rfl
  rw [h2, hI]
  ring

/-- C53: the SED goes as the inverse square of the distance, with or without self-absorption -/
theorem C53_distance (ssa : Bool) (nu z d_L δ B R_b : ℝ) {s : ℝ} (hs : s ≠ 0) (d : Dist) (gamma : List ℝ) :
    sscSed k I ssa nu z (s * d_L) δ B R_b d gamma = sscSed k I ssa nu z d_L δ B R_b d gamma / s ^ 2 := by
  unfold sscSed
  simp only [Synchrotron.C51_distance, uDiff_distance k R_b d_L δ _ _ hs]
  generalize I _ _ = J
  rw [mul_pow]
  field_simp

/-- C53: the SED is not negative -/
theorem C53_nonneg (hI : NonnegIntegrator I) (ssa : Bool) {b : Blob} (h : BlobOK k b) {nu : ℝ} :
    0 ≤ sscSed k I ssa nu b.z b.d_L b.delta_D b.B b.R_b b.n_e b.gamma_e := by
  unfold sscSed
  dsimp only
  have hssa : (if ssa = true then b.n_e.afterSSA b.gamma_e else b.gamma_e) = b.gamma_e := by
    split_ifs
    · unfold Dist.afterSSA
      split
      · rfl
      · rfl
      · exact h.grid.afterCall
    · rfl
  rw [h.grid.afterCall, hssa, h.grid.afterCall]
  have := h.consts.c; have := h.consts.sigma_T; have := h.delta; have := h.d_L; have := Real.pi_pos
  have hV : 0 ≤ Synchrotron.volume b.R_b := by
    unfold Synchrotron.volume
    have := h.R_b
    positivity
  have hint : 0 ≤ I (nuToIntegrate.map fun nu' => over I b.gamma_e fun g =>
      uPhSynchDiff k b.R_b b.d_L b.delta_D (nuToEps k nu' b.z b.delta_D)
          (Synchrotron.sedFlux k I ssa nu' b.z b.d_L b.delta_D b.B b.R_b b.n_e b.gamma_e)
        / nuToEps k nu' b.z b.delta_D ^ 2 * (Synchrotron.volume b.R_b * b.n_e.call g) / g ^ 2
        * isotropicKernel g (nuToEps k nu' b.z b.delta_D) (nuToEps k nu b.z b.delta_D))
      (nuToIntegrate.map fun nu' => nuToEps k nu' b.z b.delta_D) := by
    apply hI _ _ (epsilon_chain h)
    · intro x hx
      obtain ⟨nu', hn', rfl⟩ := List.mem_map.1 hx
      exact Synchrotron.nuToEps_pos h.consts (logspace_pos nu' hn') h.z h.delta
    · intro y hy
      obtain ⟨nu', hn', rfl⟩ := List.mem_map.1 hy
      have he := Synchrotron.nuToEps_pos h.consts (logspace_pos nu' hn') h.z h.delta
      apply over_nonneg hI h.grid.chain b.gamma_e_pos
      intro g hg
      have hg0 := b.gamma_e_pos g hg
      have hsed := Synchrotron.C51_blob_nonneg h.grid (h.physical (logspace_pos nu' hn')) hI ssa
      have hu : 0 ≤ uPhSynchDiff k b.R_b b.d_L b.delta_D (nuToEps k nu' b.z b.delta_D)
          (Synchrotron.sedFlux k I ssa nu' b.z b.d_L b.delta_D b.B b.R_b b.n_e b.gamma_e) := by
        unfold uPhSynchDiff
        have := h.R_b
        positivity
      have hn := C23_nonneg h.dist g
      have hk := C40_nonneg hg0 he.le (εs := nuToEps k nu b.z b.delta_D)
      positivity
  positivity

/-- C53: self-absorption of the target photons does not add flux -/
theorem C53_ssa {b : Blob} (h : BlobOK k b) {nu : ℝ} :
    sscSed k trapz true nu b.z b.d_L b.delta_D b.B b.R_b b.n_e b.gamma_e
      ≤ sscSed k trapz false nu b.z b.d_L b.delta_D b.B b.R_b b.n_e b.gamma_e := by
  unfold sscSed
  dsimp only
  have hssa : b.n_e.afterSSA b.gamma_e = b.gamma_e := by
    unfold Dist.afterSSA
    split
    · rfl
    · rfl
    · exact h.grid.afterCall
  simp only [if_true, Bool.false_eq_true, if_false]
  rw [h.grid.afterCall, hssa, h.grid.afterCall]
  have := h.consts.c; have := h.consts.sigma_T; have := h.delta; have := h.d_L; have := Real.pi_pos
  have hV : 0 ≤ Synchrotron.volume b.R_b := by
    unfold Synchrotron.volume
    have := h.R_b
    positivity
  apply mul_le_mul_of_nonneg_left _ (by positivity)
  apply mul_le_mul_of_nonneg_left _ (by positivity)
  apply trapz_mono _ _ _ _ (epsilon_chain h)
  intro nu' hn'
  have he := Synchrotron.nuToEps_pos h.consts (logspace_pos nu' hn') h.z h.delta
  apply C33_trapz_mono _ _ _ h.grid.chain
  intro g hg
  have hg0 := b.gamma_e_pos g hg
  have hsed := Synchrotron.C52_blob h.grid (h.physical (logspace_pos nu' hn')) nonneg_trapz
  have hn := C23_nonneg h.dist g
  have hk := C40_nonneg hg0 he.le (εs := nuToEps k nu b.z b.delta_D)
  have hR := h.R_b
  unfold uPhSynchDiff
  dsimp only
  gcongr

example : HomogeneousIntegrator trapz ∧ NonnegIntegrator trapz ∧ NonnegIntegrator trapzLoglog :=
  ⟨homogeneous_trapz, nonneg_trapz, nonneg_loglog⟩

/-! ### C54 -/

theorem boostedN_nonneg {d : Dist} (hd : d.Positive) {R_b δ : ℝ} (hR : 0 ≤ R_b) (gamma : List ℝ) :
    ∀ N ∈ boostedN d R_b δ gamma, 0 ≤ N := by
  intro N hN
  unfold boostedN Dist.evaluate at hN
  obtain ⟨n, hn, rfl⟩ := List.mem_map.1 hN
  obtain ⟨g, _, rfl⟩ := List.mem_map.1 hn
  have := C23_nonneg hd g
  unfold Synchrotron.volume
  positivity

theorem boostedN_scale (c : ℝ) (d : Dist) (R_b δ : ℝ) (gamma : List ℝ) :
    boostedN (d.scale c) R_b δ gamma = (boostedN d R_b δ gamma).map (c * ·) := by
  unfold boostedN Dist.evaluate
  simp only [Dist.scale_afterCall, List.map_map]
  apply List.map_congr_left
  intro g _
  simp only [Function.comp, Dist.scale_call]
  ring

theorem fold_nonneg (hI : NonnegIntegrator I) {N gamma : List ℝ} {f : ℝ → ℝ → ℝ} (hc : gamma.IsChain (· ≤ ·))
    (hg : ∀ g ∈ gamma, 0 < g) (hN : ∀ n ∈ N, 0 ≤ n) (hf : ∀ n g, 0 ≤ n → 0 < g → 0 ≤ f n g) :
    0 ≤ fold I N gamma f := by
  apply hI _ _ hc hg
  intro y hy
  obtain ⟨i, hi, rfl⟩ := List.getElem_of_mem hy
  rw [List.getElem_zipWith]
  exact hf _ _ (hN _ (List.getElem_mem _)) (hg _ (List.getElem_mem _))

theorem fold_scale (hI : HomogeneousIntegrator I) (c : ℝ) (N gamma : List ℝ) {f : ℝ → ℝ → ℝ}
    (hf : ∀ n g, f (c * n) g = c * f n g) : fold I (N.map (c * ·)) gamma f = c * fold I N gamma f := by
  unfold fold
  rw [← hI, List.zipWith_map_left, List.map_zipWith]
  simp only [hf]

/-- hypotheses on an `ExternalCompton` object -/
structure Scattering (k : Consts) (a : EC) : Prop where
  consts : k.Pos
  z : 0 ≤ a.blob.z
  d_L : 0 < a.blob.d_L
  delta : 0 < a.blob.delta_D
  mu_s : a.blob.mu_s ∈ Set.Icc (-1) 1
  R_b : 0 ≤ a.blob.R_b
  dist : a.blob.n_e.Positive
  size : 2 ≤ a.blob.gamma_e_size
  integrator : NonnegIntegrator a.integrator
  mu : a.mu.IsChain (· ≤ ·)
  mu_range : ∀ m ∈ a.mu, m ∈ Set.Icc (-1) 1
  mu_size : 2 ≤ a.mu_size
  phi : a.phi.IsChain (· ≤ ·)

/-- hypotheses on the target -/
def TargetFine (a : EC) : Prop :=
  match a.target with
  | .cmb t => 0 ≤ t.u_0 ∧ 0 < t.epsilon_0
  | .ps t => 0 ≤ t.L_0 ∧ 0 < t.epsilon_0
  | .disk t => DiskOK t a.r
  | .blr t => BLROK t a.r ∧ a.r ≠ t.R_line
  | .dt t => DTOK t a.r
  | .other => True

/-- C54: for every target the SED is not negative -/
theorem C54_nonneg {a : EC} (h : Scattering k a) (ht : TargetFine a) {nu : ℝ} (hn : 0 < nu) {x : ℝ}
    (e : a.sedFlux k nu = some x) : 0 ≤ x := by
  have hs := Synchrotron.nuToEps_pos h.consts hn h.z one_pos
  have hc : a.blob.gamma_e_external_frame.IsChain (· ≤ ·) := logspace_chain (by norm_num) h.size
  have hg : ∀ g ∈ a.blob.gamma_e_external_frame, 0 < g := logspace_pos
  have hN := boostedN_nonneg h.dist h.R_b (δ := a.blob.delta_D) a.blob.gamma_e_external_frame
  have hm := h.mu_s
  have := h.consts.c; have := h.consts.sigma_T; have := h.consts.G; have := h.d_L; have := h.delta
  have hp := Real.pi_pos
  unfold EC.sedFlux at e
  unfold TargetFine at ht
  obtain ⟨blob, target, r, mu, mu_size, phi, integrator⟩ := a
  cases target with
  | cmb t =>
    simp only [Option.some.injEq] at e ht
    obtain ⟨h1, h2⟩ := ht
    rw [← e]
    unfold isoMono
    apply mul_nonneg (by positivity)
    apply over_trapz_nonneg h.phi
    intro p _
    apply over_trapz_nonneg h.mu
    intro m hmm
    apply fold_nonneg h.integrator hc hg hN
    intro n g hn0 hg0
    have := comptonKernel_nonneg hg0 hs h2 hm (h.mu_range m hmm) (φ := p)
    positivity
  | ps t =>
    simp only [Option.some.injEq] at e ht
    obtain ⟨h1, h2⟩ := ht
    rw [← e]
    unfold psBehindJet
    apply mul_nonneg (by positivity)
    apply fold_nonneg h.integrator hc hg hN
    intro n g hn0 hg0
    have := comptonKernel_nonneg hg0 hs h2 hm (by norm_num : (1 : ℝ) ∈ Set.Icc (-1) 1) (φ := 0)
    positivity
  | disk t =>
    simp only [Option.some.injEq] at e ht
    rw [← e]
    have hM := ht.M_BH; have hL := ht.L_disk; have he := ht.eta; have hr := ht.r
    have g0 := toRg_pos h.consts ht.R_in hM
    have g1 : toRg k t.R_in t.M_BH < toRg k t.R_out t.M_BH := by
      unfold toRg
      apply div_lt_div_of_pos_right ht.R_out
      positivity
    have g2 := toRg_pos h.consts hr hM
    unfold ssDisk
    apply mul_nonneg (by positivity)
    apply over_trapz_nonneg h.phi
    intro p _
    apply over_trapz_nonneg ((SSDisk.C49_grid g0 g1 g2 h.mu_size).1.imp fun _ _ h => h.le)
    intro m hmm
    obtain ⟨-, hm0, hm1⟩ := (SSDisk.C49_grid g0 g1 g2 h.mu_size).2.2.1 m hmm
    have hR := SSDisk.C49_in_disk g0 g1 g2 h.mu_size hmm
    have hphi : 0 ≤ SSDisk.phiDiskMu m (toRg k t.R_in t.M_BH) (toRg k r t.M_BH) := (SSDisk.C49_profile g0 hR.1).1.1
    have heps : 0 < SSDisk.epsilonMu k t.L_disk t.M_BH t.eta m (toRg k r t.M_BH) :=
      disk_eps_pos h.consts hL hM he (lt_of_lt_of_le g0 hR.1)
    apply fold_nonneg h.integrator hc hg hN
    intro n g hn0 hg0
    dsimp only
    have := comptonKernel_nonneg hg0 hs heps hm ⟨by linarith, hm1.le⟩ (φ := p)
    have : 1 ≤ m ^ (-2 : ℤ) := by
      rw [zpow_neg, show (2 : ℤ) = ((2 : ℕ) : ℤ) from rfl, zpow_natCast]
      exact (one_le_inv₀ (by positivity)).2 (pow_le_one₀ hm0.le hm1.le)
    have : 0 ≤ m ^ (-2 : ℤ) - 1 := by linarith
    positivity
  | blr t =>
    simp only [Option.some.injEq] at e ht
    obtain ⟨ht, hne⟩ := ht
    rw [← e]
    have hL := ht.L_disk; have hx := ht.xi_line; have he := ht.epsilon_line
    unfold blr
    apply mul_nonneg (by positivity)
    apply over_trapz_nonneg h.phi
    intro p _
    apply over_trapz_nonneg h.mu
    intro m hmm
    have hmr := h.mu_range m hmm
    have hxp := shell_pos (by linarith [ht.R_line]) ht.r hne hmr.2
    apply fold_nonneg h.integrator hc hg hN
    intro n g hn0 hg0
    dsimp only
    have := comptonKernel_nonneg hg0 hs he hm (C35_range hmr hxp.ne') (φ := p)
    positivity
  | dt t =>
    simp only [Option.some.injEq] at e ht
    rw [← e]
    have hL := ht.L_disk; have hx := ht.xi_dt; have he := dt_eps_pos h.consts ht
    have hxp := ring_pos ht.R_dt (l := r)
    unfold dt
    apply mul_nonneg (by positivity)
    apply over_trapz_nonneg h.phi
    intro p _
    apply fold_nonneg h.integrator hc hg hN
    intro n g hn0 hg0
    have := comptonKernel_nonneg hg0 hs he hm (ring_angle (R := t.R_dt) (l := r)) (φ := p)
    positivity
  | other => simp at e

/-- C54: for every target the SED is linear in the electron density -/
theorem C54_linear {a : EC} (hI : HomogeneousIntegrator a.integrator) (c nu : ℝ) :
    ({ a with blob := { a.blob with n_e := a.blob.n_e.scale c } } : EC).sedFlux k nu = (a.sedFlux k nu).map (c * ·) := by
  obtain ⟨blob, target, r, mu, mu_size, phi, integrator⟩ := a
  simp only at hI
  have hb : ∀ b : Blob, ({ b with n_e := b.n_e.scale c } : Blob).mu_s = b.mu_s := fun _ => rfl
  have hx : ∀ b : Blob, ({ b with n_e := b.n_e.scale c } : Blob).gamma_e_external_frame = b.gamma_e_external_frame :=
    fun _ => rfl
  unfold EC.sedFlux
  cases target with
  | cmb t =>
    simp only [hb, hx, Option.map_some, Option.some.injEq]
    unfold isoMono
    simp only [boostedN_scale]
    rw [mul_left_comm]
    congr 1
    rw [← over_scale homogeneous_trapz]
    apply over_congr
    intro p _
    rw [← over_scale homogeneous_trapz]
    apply over_congr
    intro m _
    exact fold_scale hI c _ _ fun n g => by ring
  | ps t =>
    simp only [hb, hx, Option.map_some, Option.some.injEq]
    unfold psBehindJet
    simp only [boostedN_scale]
    rw [mul_left_comm]
    congr 1
    exact fold_scale hI c _ _ fun n g => by ring
  | disk t =>
    simp only [hb, hx, Option.map_some, Option.some.injEq]
    unfold ssDisk
    simp only [boostedN_scale]
    rw [mul_left_comm]
    congr 1
    rw [← over_scale homogeneous_trapz]
    apply over_congr
    intro p _
    rw [← over_scale homogeneous_trapz]
    apply over_congr
    intro m _
    exact fold_scale hI c _ _ fun n g => by ring
  | blr t =>
    simp only [hb, hx, Option.map_some, Option.some.injEq]
    unfold blr
    simp only [boostedN_scale]
    rw [mul_left_comm]
    congr 1
    rw [← over_scale homogeneous_trapz]
    apply over_congr
    intro p _
    rw [← over_scale homogeneous_trapz]
    apply over_congr
    intro m _
    exact fold_scale hI c _ _ fun n g => by ring
  | dt t =>
    simp only [hb, hx, Option.map_some, Option.some.injEq]
    unfold dt
    simp only [boostedN_scale]
    rw [mul_left_comm]
    congr 1
    rw [← over_scale homogeneous_trapz]
    apply over_congr
    intro p _
    exact fold_scale hI c _ _ fun n g => by ring
  | other => rfl

/-- the same target, brighter by the factor `c`; for a disk the accretion efficiency is raised alike, so that the
temperatures stay -/
noncomputable def brighter (c : ℝ) : Target → Target
  | .cmb t => .cmb { t with u_0 := c * t.u_0 }
  | .ps t => .ps { t with L_0 := c * t.L_0 }
  | .disk t => .disk { t with L_disk := c * t.L_disk, eta := c * t.eta }
  | .blr t => .blr { t with L_disk := c * t.L_disk }
  | .dt t => .dt { t with L_disk := c * t.L_disk }
  | .other => .other

/-- factor of the SED for a target brighter by `c`: the SED of the disk only depends on the accretion rate -/
noncomputable def brightness (c : ℝ) : Target → ℝ
  | .disk _ => 1
  | _ => c

/-- C54: the SED is linear in the energy density or luminosity of the target.  The photons of a disk change their
energies with its luminosity; the SED depends on luminosity and efficiency by their ratio, the accretion rate, only. -/
theorem C54_target (a : EC) {c : ℝ} (hc : c ≠ 0) (nu : ℝ) :
    ({ a with target := brighter c a.target } : EC).sedFlux k nu
      = (a.sedFlux k nu).map (brightness c a.target * ·) := by
  obtain ⟨blob, target, r, mu, mu_size, phi, integrator⟩ := a
  unfold EC.sedFlux
  cases target with
  | cmb t =>
    simp only [brighter, brightness, Option.map_some, Option.some.injEq]
    unfold isoMono
    ring
  | ps t =>
    simp only [brighter, brightness, Option.map_some, Option.some.injEq]
    unfold psBehindJet
    ring
  | disk t =>
    simp only [brighter, brightness, Option.map_some, Option.some.injEq, one_mul]
    have h1 : ∀ m rt : ℝ, SSDisk.epsilonMu k (c * t.L_disk) t.M_BH (c * t.eta) m rt
        = SSDisk.epsilonMu k t.L_disk t.M_BH t.eta m rt := by
      intro m rt
      unfold SSDisk.epsilonMu SSDisk.epsilon SSDisk.l_Edd
      have : c * t.L_disk / SSDisk.L_Edd k t.M_BH / (SSDisk.M_8 k t.M_BH * (c * t.eta))
          = t.L_disk / SSDisk.L_Edd k t.M_BH / (SSDisk.M_8 k t.M_BH * t.eta) := by
        rw [div_div, div_div, show SSDisk.L_Edd k t.M_BH * (SSDisk.M_8 k t.M_BH * (c * t.eta))
          = c * (SSDisk.L_Edd k t.M_BH * (SSDisk.M_8 k t.M_BH * t.eta)) by ring, mul_div_mul_left _ _ hc]
      rw [this]
    have h2 : c * t.L_disk / (c * t.eta * k.c ^ 2) = t.L_disk / (t.eta * k.c ^ 2) := by
      rw [mul_assoc, mul_div_mul_left _ _ hc]
    unfold ssDisk
    simp only [h1, h2]
  | blr t =>
    simp only [brighter, brightness, Option.map_some, Option.some.injEq]
    unfold blr
    ring
  | dt t =>
    simp only [brighter, brightness, Option.map_some, Option.some.injEq]
    unfold dt
    have : ({ t with L_disk := c * t.L_disk } : DT).epsilon_dt k = t.epsilon_dt k := rfl
    rw [this]
    ring
  | other => rfl

/-- C54: the SED goes as the inverse square of the distance -/
theorem C54_distance (a : EC) (s nu : ℝ) :
    ({ a with blob := { a.blob with d_L := s * a.blob.d_L } } : EC).sedFlux k nu
      = (a.sedFlux k nu).map (· / s ^ 2) := by
  obtain ⟨blob, target, r, mu, mu_size, phi, integrator⟩ := a
  have hb : ({ blob with d_L := s * blob.d_L } : Blob).mu_s = blob.mu_s := rfl
  have hx : ({ blob with d_L := s * blob.d_L } : Blob).gamma_e_external_frame = blob.gamma_e_external_frame := rfl
  have key : ∀ p q x : ℝ, p / (q * s ^ 2) * x = p / q * x / s ^ 2 := by
    intro p q x
    rw [← div_div]
    ring
  unfold EC.sedFlux
  cases target with
  | cmb t =>
    simp only [hb, hx, Option.map_some, Option.some.injEq]
    unfold isoMono
    dsimp only
    rw [← key]
    congr 2
    ring
  | ps t =>
    simp only [hb, hx, Option.map_some, Option.some.injEq]
    unfold psBehindJet
    dsimp only
    rw [← key]
    congr 2
    ring
  | disk t =>
    simp only [hb, hx, Option.map_some, Option.some.injEq]
    unfold ssDisk
    dsimp only
    rw [← key]
    congr 2
    ring
  | blr t =>
    simp only [hb, hx, Option.map_some, Option.some.injEq]
    unfold blr
    dsimp only
    rw [← key]
    congr 2
    ring
  | dt t =>
    simp only [hb, hx, Option.map_some, Option.some.injEq]
    unfold dt
    dsimp only
    rw [← key]
    congr 2
    ring
  | other => rfl

/-- C54: only an unsupported target gives no result -/
theorem C54_none (k : Consts) (a : EC) (nu : ℝ) : a.sedFlux k nu = none ↔ a.target = .other := by
  obtain ⟨blob, target, r, mu, mu_size, phi, integrator⟩ := a
  unfold EC.sedFlux
  cases target <;> simp

/-- a newly built object meets the hypotheses on the grids -/
theorem scattering_new (hk : k.Pos) {b : Blob} (hz : 0 ≤ b.z) (hd : 0 < b.d_L) (hδ : 0 < b.delta_D)
    (hm : b.mu_s ∈ Set.Icc (-1) 1) (hR : 0 ≤ b.R_b) (hdist : b.n_e.Positive) (hs : 2 ≤ b.gamma_e_size)
    {t : Target} {r : ℝ} (ht : ∀ d, t = .disk d → DiskOK d r) (hI : NonnegIntegrator I) :
    Scattering k (EC.new k b t r I) := by
  have hlin : (linspace (-1 : ℝ) 1 100).IsChain (· ≤ ·) := linspace_chain (by norm_num) (by norm_num)
  have hlm : ∀ m ∈ linspace (-1 : ℝ) 1 100, m ∈ Set.Icc (-1 : ℝ) 1 := fun m hm =>
    linspace_mem (by norm_num) (by norm_num) hm
  have hphi : (linspace 0 (2 * Real.pi) 50).IsChain (· ≤ ·) :=
    linspace_chain (by have := Real.pi_pos; positivity) (by norm_num)
  refine ⟨hk, hz, hd, hδ, hm, hR, hdist, hs, hI, ?_, ?_, by norm_num [EC.new], hphi⟩
  · unfold EC.new
    cases t with
    | disk d =>
      obtain ⟨h0, h1, h2⟩ := disk_grid hk (ht d rfl)
      exact (SSDisk.C49_grid h0 h1 h2 (by norm_num)).1.imp fun _ _ h => h.le
    | _ => exact hlin
  · unfold EC.new
    cases t with
    | disk d =>
      obtain ⟨h0, h1, h2⟩ := disk_grid hk (ht d rfl)
      intro m hm
      have := (SSDisk.C49_grid h0 h1 h2 (by norm_num)).2.2.1 m hm
      exact ⟨by linarith [this.2.1], this.2.2.le⟩
    | _ => exact hlm

/-- a blob and a target meeting the hypotheses -/
example : ∃ k : Consts, ∃ a : EC, Scattering k a ∧ TargetFine a ∧ a.sedFlux k 1 ≠ none := by
  have hG : Synchrotron.demoBlob.Gamma = 10 := rfl
  have hd : Synchrotron.demoBlob.delta_D = 10 := rfl
  have hm : Synchrotron.demoBlob.mu_s ∈ Set.Icc (-1) 1 := by
    have hβ := (Blob.C46_beta (b := Synchrotron.demoBlob) (by rw [hG]; norm_num)).1.1
    refine (Blob.C46_allowed (by rw [hG]; norm_num) (by rw [hd]; norm_num)).2 ⟨?_, ?_⟩ <;> rw [hG, hd]
    · rw [div_le_iff₀ (by positivity)]
      linarith
    · linarith
  refine ⟨⟨1, 1, 1, 1, 1, 1, 1, 1, 1, 1⟩, EC.new _ Synchrotron.demoBlob
    (.dt { L_disk := 1, xi_dt := 1, T_dt := 1, R_dt := 1 }) 1 trapzLoglog,
    scattering_new (by constructor <;> norm_num) ?_ ?_ ?_ hm ?_ ?_ ?_ ?_ nonneg_loglog, ?_, ?_⟩
  any_goals norm_num [Synchrotron.demoBlob, Dist.Positive]
  · intro d h
    exact absurd h (by simp)
  · exact ⟨by norm_num, by norm_num, by norm_num, by norm_num, by norm_num [EC.new]⟩
  · rw [C54_none]
    simp [EC.new]

end Verif.Compton
