import Verif.Props.ShellGuard

/- C49 (coordinates of the disk) and C50 (normalisation of its SED). -/

namespace Verif.Targets.SSDisk

open MathUtils Absorption Spectra

/-! ### C49 -/

/-- cosine of the zenith angle under which the point at distance `r` on the axis sees the radius `R` of the disk -/
noncomputable def zenith (R r : ℝ) : ℝ := r / √(r ^ 2 + R ^ 2)

theorem zenith_mem {R r : ℝ} (hR : 0 < R) (hr : 0 < r) : zenith R r ∈ Set.Ioo 0 1 := by
  unfold zenith
  refine ⟨by positivity, ?_⟩
  rw [div_lt_one (by positivity)]
  exact Real.lt_sqrt_of_sq_lt (by nlinarith [sq_nonneg R, mul_pos hR hR])

theorem zenith_eq {R r : ℝ} (hr : 0 < r) : 1 / √(1 + (R / r) ^ 2) = zenith R r := by
  unfold zenith
  have h : 1 + (R / r) ^ 2 = (r ^ 2 + R ^ 2) / r ^ 2 := by field_simp
  rw [h, Real.sqrt_div' _ (by positivity), Real.sqrt_sq hr.le, one_div_div]

/-- C49: the zenith angle determines the radius -/
theorem C49_radius {R r : ℝ} (hR : 0 ≤ R) (hr : 0 < r) : radius (zenith R r) r = R := by
  unfold radius zenith
  have h0 : 0 < r ^ 2 + R ^ 2 := by positivity
  have h : (r / √(r ^ 2 + R ^ 2)) ^ (-2 : ℤ) - 1 = (R / r) ^ 2 := by
    rw [zpow_neg, show (2 : ℤ) = ((2 : ℕ) : ℤ) from rfl, zpow_natCast, div_pow, Real.sq_sqrt h0.le]
    field_simp
    ring
  rw [h, Real.sqrt_sq (by positivity)]
  field_simp

/-- C49: larger radii are seen under smaller cosines -/
theorem C49_decreasing {R R' r : ℝ} (hR : 0 ≤ R) (h : R < R') (hr : 0 < r) : zenith R' r < zenith R r := by
  unfold zenith
  apply div_lt_div_of_pos_left hr (by positivity)
  apply Real.sqrt_lt_sqrt (by positivity)
  nlinarith

/-- C49: the angle of a cosine between 0 and 1 is that of some radius -/
theorem C49_angle {mu r : ℝ} (h : mu ∈ Set.Ioc 0 1) (hr : 0 < r) : 0 ≤ radius mu r ∧ zenith (radius mu r) r = mu := by
  have h0 := h.1
  have h2 : 1 ≤ mu ^ (-2 : ℤ) := by
    rw [zpow_neg, show (2 : ℤ) = ((2 : ℕ) : ℤ) from rfl, zpow_natCast]
    exact (one_le_inv₀ (by positivity)).2 (pow_le_one₀ h0.le h.2)
  have h3 : 0 ≤ mu ^ (-2 : ℤ) - 1 := by linarith
  refine ⟨by unfold radius; positivity, ?_⟩
  unfold zenith radius
  have e : r ^ 2 + (r * √(mu ^ (-2 : ℤ) - 1)) ^ 2 = (r / mu) ^ 2 := by
    rw [mul_pow, Real.sq_sqrt h3, zpow_neg, show (2 : ℤ) = ((2 : ℕ) : ℤ) from rfl, zpow_natCast]
    field_simp
    ring
  rw [e, Real.sqrt_sq (by positivity)]
  field_simp

/-- C49: the grid of angles runs, increasing, from the angle of the outer radius to that of the inner one, strictly
between 0 and 1 -/
theorem C49_grid {R_in R_out r : ℝ} (h0 : 0 < R_in) (h1 : R_in < R_out) (hr : 0 < r) {n : ℕ} (hn : 2 ≤ n) :
    (muFromRTilde R_in R_out r n).IsChain (· < ·)
      ∧ (muFromRTilde R_in R_out r n).length = n
      ∧ (∀ mu ∈ muFromRTilde R_in R_out r n, mu ∈ Set.Icc (zenith R_out r) (zenith R_in r) ∧ mu ∈ Set.Ioo 0 1)
      ∧ zenith R_out r ∈ muFromRTilde R_in R_out r n ∧ zenith R_in r ∈ muFromRTilde R_in R_out r n := by
  have hlt := C49_decreasing h0.le h1 hr
  have e : muFromRTilde R_in R_out r n = linspace (zenith R_out r) (zenith R_in r) n := by
    unfold muFromRTilde
    rw [zenith_eq hr, zenith_eq hr]
  rw [e]
  have hn' : (n : ℝ) - 1 ≠ 0 := by
    have : (2 : ℝ) ≤ n := by exact_mod_cast hn
    linarith
  refine ⟨linspace_strict hlt hn, linspace_length _ _ _, ?_, ?_, ?_⟩
  · intro mu hmu
    have h := linspace_mem hlt.le hn hmu
    exact ⟨h, lt_of_lt_of_le (zenith_mem (h0.trans h1) hr).1 h.1, lt_of_le_of_lt h.2 (zenith_mem h0 hr).2⟩
  · refine List.mem_map.2 ⟨0, List.mem_range.2 (by omega), by simp⟩
  · refine List.mem_map.2 ⟨n - 1, List.mem_range.2 (by omega), ?_⟩
    rw [Nat.cast_sub (by omega), Nat.cast_one]
    field_simp
    ring

/-- C49: every angle of the grid belongs to a radius of the disk -/
theorem C49_in_disk {R_in R_out r : ℝ} (h0 : 0 < R_in) (h1 : R_in < R_out) (hr : 0 < r) {n : ℕ} (hn : 2 ≤ n) {mu : ℝ}
    (h : mu ∈ muFromRTilde R_in R_out r n) : radius mu r ∈ Set.Icc R_in R_out := by
  obtain ⟨⟨ha, hb⟩, hc, hd⟩ := (C49_grid h0 h1 hr hn).2.2.1 mu h
  obtain ⟨hn, hz⟩ := C49_angle ⟨hc, hd.le⟩ hr
  rw [← hz] at ha hb
  constructor
  · by_contra hlt
    exact absurd (C49_decreasing hn (not_le.1 hlt) hr) (not_lt.2 hb)
  · by_contra hlt
    exact absurd (C49_decreasing (h0.trans h1).le (not_le.1 hlt) hr) (not_lt.2 ha)

/-- C49: photon energy and dissipation profile at an angle are those at the radius seen under it -/
theorem C49_energy (k : Consts) (L_disk M_BH eta R_in : ℝ) {R r : ℝ} (hR : 0 ≤ R) (hr : 0 < r) :
    epsilonMu k L_disk M_BH eta (zenith R r) r = epsilon k L_disk M_BH eta R
      ∧ phiDiskMu (zenith R r) R_in r = phiDisk R_in R := by
  unfold epsilonMu phiDiskMu phiDisk
  rw [C49_radius hR hr]
  exact ⟨rfl, rfl⟩

/-- C49: the dissipation profile is between 0 and 1 on the disk, 0 at the inner edge -/
theorem C49_profile {R_in R : ℝ} (h0 : 0 < R_in) (h : R_in ≤ R) :
    phiDisk R_in R ∈ Set.Ico 0 1 ∧ (phiDisk R_in R = 0 ↔ R = R_in) := by
  have hR : 0 < R := lt_of_lt_of_le h0 h
  have h1 : √(R_in / R) ≤ 1 := Real.sqrt_le_one.2 (by rwa [div_le_one hR])
  have h2 : 0 < √(R_in / R) := Real.sqrt_pos.2 (by positivity)
  unfold phiDisk
  refine ⟨⟨by linarith, by linarith⟩, ?_⟩
  rw [sub_eq_zero, eq_comm, Real.sqrt_eq_one, div_eq_one_iff_eq hR.ne']
  exact eq_comm

/-- C49: the photons get softer outwards -/
theorem C49_softer {k : Consts} (hk : k.Pos) {L_disk M_BH eta R R' : ℝ} (hL : 0 < L_disk) (hM : 0 < M_BH) (he : 0 < eta)
    (hR : 0 < R) (h : R < R') : epsilon k L_disk M_BH eta R' < epsilon k L_disk M_BH eta R := by
  unfold epsilon l_Edd L_Edd M_8
  have := hk.M_sun
  dsimp only
  apply mul_lt_mul_of_pos_left _ (by positivity)
  exact Real.rpow_lt_rpow_of_neg hR h (by norm_num)

/-- C49: radii given in units of the gravitational radius are read back as given -/
theorem C49_tilde {k : Consts} (hk : k.Pos) {M_BH : ℝ} (hM : 0 < M_BH) (L_disk eta R_in R_out : ℝ) :
    (ofTilde k M_BH L_disk eta R_in R_out).R_in_tilde k = R_in
      ∧ (ofTilde k M_BH L_disk eta R_in R_out).R_out_tilde k = R_out := by
  have := hk.G; have := hk.c
  have h : k.G * M_BH / k.c ^ 2 ≠ 0 := by positivity
  unfold R_in_tilde R_out_tilde ofTilde R_g
  exact ⟨mul_div_cancel_right₀ _ h, mul_div_cancel_right₀ _ h⟩

/-- C49: the photon energy the radiative processes use, at an angle and a height converted to gravitational radii, is
that of the radius seen under this angle, in units of G M / c²; converted radii are those the disk was built with -/
theorem C49_units {k : Consts} (hk : k.Pos) {M_BH : ℝ} (hM : 0 < M_BH) (L_disk eta Rt_in Rt_out : ℝ) {R r : ℝ}
    (hR : 0 ≤ R) (hr : 0 < r) :
    epsilonMu k L_disk M_BH eta (zenith R r) (toRg k r M_BH)
        = epsilon k L_disk M_BH eta (R * k.c ^ 2 / (k.G * M_BH))
      ∧ toRg k (ofTilde k M_BH L_disk eta Rt_in Rt_out).R_in M_BH = Rt_in
      ∧ toRg k (ofTilde k M_BH L_disk eta Rt_in Rt_out).R_out M_BH = Rt_out := by
  have := hk.G; have := hk.c
  have h : 0 < k.G * M_BH / k.c ^ 2 := by positivity
  refine ⟨?_, ?_, ?_⟩
  · have e : zenith R r = zenith (R / (k.G * M_BH / k.c ^ 2)) (toRg k r M_BH) := by
      unfold zenith toRg
      generalize k.G * M_BH / k.c ^ 2 = g at h
      rw [show (r / g) ^ 2 + (R / g) ^ 2 = (r ^ 2 + R ^ 2) / g ^ 2 by field_simp,
        Real.sqrt_div (by positivity), Real.sqrt_sq h.le]
      have : 0 < √(r ^ 2 + R ^ 2) := Real.sqrt_pos.2 (by positivity)
      field_simp
    rw [e, (C49_energy k L_disk M_BH eta 1 (r := toRg k r M_BH) (div_nonneg hR h.le) (div_pos hr h)).1]
    congr 1
    field_simp
  · exact mul_div_cancel_right₀ _ h.ne'
  · exact mul_div_cancel_right₀ _ h.ne'

example : (0 : ℝ) < 6 ∧ (6 : ℝ) < 200 ∧ (0 : ℝ) < 100 := by norm_num

/-- C49: the derived attributes.  The accreted rest energy times the efficiency is the luminosity; a hole of 10⁸ solar
masses has the Eddington luminosity 1.26e46 erg/s, other holes in proportion; `l_Edd` is the luminosity in units of it -/
theorem C49_accretion {k : Consts} (hk : k.Pos) (d : SSDisk) (he : d.eta ≠ 0) (hM : d.M_BH ≠ 0) :
    d.eta * (d.m_dot k * k.c ^ 2) = d.L_disk
      ∧ (∀ n : ℝ, L_Edd k (n * (10 ^ 8 * k.M_sun)) = n * (126 / 100 * 10 ^ 46))
      ∧ l_Edd k d.L_disk d.M_BH * L_Edd k d.M_BH = d.L_disk := by
  have hc := hk.c.ne'
  have hs := hk.M_sun.ne'
  refine ⟨?_, fun n => ?_, ?_⟩
  · unfold m_dot
    field_simp
  · unfold L_Edd M_8
    field_simp
  · unfold l_Edd L_Edd M_8
    field_simp

/-- C49: fourth power of the characteristic photon energy of a ring, in terms of the attributes -/
theorem C49_energy_formula {k : Consts} (hk : k.Pos) {L_disk M_BH eta R : ℝ} (hL : 0 < L_disk) (hM : 0 < M_BH)
    (he : 0 < eta) (hR : 0 < R) :
    epsilon k L_disk M_BH eta R ^ 4
      = (27 / 10 ^ 5) ^ 4 * (L_disk * (10 ^ 8 * k.M_sun) ^ 2) / (126 / 100 * 10 ^ 46 * M_BH ^ 2 * eta) / R ^ 3 := by
  have hs := hk.M_sun
  have h4 : ∀ {x : ℝ}, 0 < x → (x ^ (1 / 4 : ℝ)) ^ 4 = x := by
    intro x hx
    rw [← Real.rpow_natCast, ← Real.rpow_mul hx.le]
    norm_num
  have h3 : (R ^ (-3 / 4 : ℝ)) ^ 4 = 1 / R ^ 3 := by
    rw [← Real.rpow_natCast, ← Real.rpow_mul hR.le]
    norm_num
  unfold epsilon
  dsimp only
  rw [mul_pow, mul_pow, h3, h4 (by unfold l_Edd L_Edd M_8; positivity)]
  unfold l_Edd L_Edd M_8
  field_simp

/-- C49: the temperature of the multi-temperature SED and the photon energy of the radiative processes are those of one
disk: at the radius `Rt` (in units of R_g) they are in the same ratio for all disks and all rings, but for the profile
`1 - √(R_in/R)`, which the photon energy leaves out -/
theorem C49_temperature {k : Consts} (hk : k.Pos) (d : SSDisk) (hL : 0 < d.L_disk) (hM : 0 < d.M_BH) (he : 0 < d.eta)
    (h0 : 0 < d.R_in) {Rt : ℝ} (h : d.R_in_tilde k ≤ Rt) :
    (27 / 10 ^ 5) ^ 4 * (10 ^ 8 * k.M_sun) ^ 2 / (126 / 100 * 10 ^ 46)
        * T k (Rt * d.R_g k) d.M_BH (d.m_dot k) d.R_in ^ 4
      = 3 * k.c ^ 4 / (8 * Real.pi * k.sigma_sb * k.G ^ 2)
        * epsilon k d.L_disk d.M_BH d.eta Rt ^ 4 * phiDisk (d.R_in_tilde k) Rt := by
  have hc := hk.c; have hG := hk.G; have hs := hk.M_sun; have hb := hk.sigma_sb; have hp := Real.pi_pos
  have hg : 0 < d.R_g k := by unfold R_g; positivity
  have ht : 0 < d.R_in_tilde k := by unfold R_in_tilde; positivity
  have hRt : 0 < Rt := lt_of_lt_of_le ht h
  have e : d.R_in / (Rt * d.R_g k) = d.R_in_tilde k / Rt := by
    unfold R_in_tilde
    field_simp
  have hphi : 0 ≤ phiDisk (d.R_in_tilde k) Rt := (C49_profile ht h).1.1
  rw [C49_energy_formula hk hL hM he hRt]
  have hT : T k (Rt * d.R_g k) d.M_BH (d.m_dot k) d.R_in ^ 4
      = 3 * k.G * d.M_BH * d.m_dot k * phiDisk (d.R_in_tilde k) Rt / (8 * Real.pi * (Rt * d.R_g k) ^ 3 * k.sigma_sb) := by
    unfold T
    dsimp only
    rw [e]
    have : 0 ≤ 3 * k.G * d.M_BH * d.m_dot k * (1 - √(d.R_in_tilde k / Rt))
        / (8 * Real.pi * (Rt * d.R_g k) ^ 3 * k.sigma_sb) := by
      have : 0 < d.m_dot k := by unfold m_dot; positivity
      unfold phiDisk at hphi
      positivity
    rw [← Real.rpow_natCast, ← Real.rpow_mul this]
    norm_num
    rfl
  rw [hT]
  generalize phiDisk (d.R_in_tilde k) Rt = φ
  unfold m_dot R_g
  field_simp

example : ∃ d : SSDisk, 0 < d.L_disk ∧ 0 < d.M_BH ∧ 0 < d.eta ∧ 0 < d.R_in ∧ d.R_in_tilde ⟨1, 1, 1, 1, 1, 1, 1, 1, 1, 1⟩ ≤ 6 :=
  ⟨⟨1, 1, 1 / 12, 6, 200⟩, by norm_num [R_in_tilde, R_g]⟩

/-! ### C50 -/

theorem planck_nonneg {k : Consts} (hk : k.Pos) {nu T : ℝ} (hn : 0 < nu) (hT : 0 ≤ T) : 0 ≤ planck k nu T := by
  unfold planck
  have := hk.h; have := hk.k_B; have := hk.c
  have : 1 ≤ Real.exp (k.h * nu / (k.k_B * T)) := Real.one_le_exp (by positivity)
  have : 0 ≤ Real.exp (k.h * nu / (k.k_B * T)) - 1 := by linarith
  positivity

theorem planck_pos {k : Consts} (hk : k.Pos) {nu T : ℝ} (hn : 0 < nu) (hT : 0 < T) : 0 < planck k nu T := by
  unfold planck
  have := hk.h; have := hk.k_B; have := hk.c
  have : 1 < Real.exp (k.h * nu / (k.k_B * T)) := Real.one_lt_exp_iff.2 (by positivity)
  have : 0 < Real.exp (k.h * nu / (k.k_B * T)) - 1 := by linarith
  positivity

theorem T_nonneg {k : Consts} (hk : k.Pos) {R M_BH m_dot R_in : ℝ} (hM : 0 < M_BH) (hm : 0 < m_dot) (h0 : 0 < R_in)
    (h : R_in ≤ R) : 0 ≤ T k R M_BH m_dot R_in := by
  unfold T
  have := hk.G; have := hk.sigma_sb; have := Real.pi_pos
  have hR : 0 < R := lt_of_lt_of_le h0 h
  have : 0 ≤ 1 - √(R_in / R) := (C49_profile h0 h).1.1
  positivity

theorem T_pos {k : Consts} (hk : k.Pos) {R M_BH m_dot R_in : ℝ} (hM : 0 < M_BH) (hm : 0 < m_dot) (h0 : 0 < R_in)
    (h : R_in < R) : 0 < T k R M_BH m_dot R_in := by
  unfold T
  have := hk.G; have := hk.sigma_sb; have := Real.pi_pos
  have hR : 0 < R := h0.trans h
  have : 0 < 1 - √(R_in / R) := lt_of_le_of_ne (C49_profile h0 h.le).1.1
    (fun e => h.ne' ((C49_profile h0 h.le).2.1 e.symm))
  positivity

/-- a disk and an observer -/
structure Observed (k : Consts) (z M_BH m_dot R_in R_out d_L mu_s : ℝ) : Prop where
  consts : k.Pos
  hz : 0 ≤ z
  hM : 0 < M_BH
  hm : 0 < m_dot
  hin : 0 < R_in
  hout : R_in < R_out
  hd : 0 < d_L
  hmu : 0 < mu_s

variable {k : Consts} {z M_BH m_dot R_in R_out d_L mu_s : ℝ}

/-- C50: the multi-temperature SED is positive -/
theorem C50_positive (h : Observed k z M_BH m_dot R_in R_out d_L mu_s) {nu : ℝ} (hn : 0 < nu) :
    0 < multiTSed k nu z M_BH m_dot R_in R_out d_L mu_s := by
  unfold multiTSed
  dsimp only
  have hd := h.hd; have hmu := h.hmu; have hz := h.hz
  have hp := Real.pi_pos
  have hnu : 0 < nu * (1 + z) := by positivity
  have hgrid := fun R hR => linspace_mem (n := 100) h.hout.le (by norm_num) (x := R) hR
  have hnn : ∀ R ∈ linspace R_in R_out 100,
      0 ≤ R / d_L ^ 2 * planck k (nu * (1 + z)) (T k R M_BH m_dot R_in) := by
    intro R hR
    have h1 := (hgrid R hR).1
    have : 0 ≤ R := h.hin.le.trans h1
    have := planck_nonneg h.consts hnu (T_nonneg h.consts h.hM h.hm h.hin h1)
    positivity
  have hc := linspace_strict h.hout (n := 100) (by norm_num)
  have hint : 0 < over trapz (linspace R_in R_out 100) fun R =>
      R / d_L ^ 2 * planck k (nu * (1 + z)) (T k R M_BH m_dot R_in) := by
    refine lt_of_le_of_ne (over_trapz_nonneg (hc.imp fun _ _ h => h.le) hnn) fun e => ?_
    have h0 := (over_trapz_eq_zero_iff hc (by rw [linspace_length]; norm_num) hnn).1 e.symm R_out
      (List.mem_map.2 ⟨99, by simp, by norm_num; ring⟩)
    have h1 := planck_pos h.consts hnu (T_pos h.consts h.hM h.hm h.hin h.hout)
    have h2 := h.hin.trans h.hout
    have : R_out / d_L ^ 2 * planck k (nu * (1 + z)) (T k R_out M_BH m_dot R_in) ≠ 0 := by positivity
    exact this h0
  positivity

theorem nuGrid_strict : nuGrid.IsChain (· < ·) :=
  List.isChain_iff_pairwise.2 (logspace_pairwise (by norm_num) 100 (by norm_num))

theorem multiTLum_pos (h : Observed k z M_BH m_dot R_in R_out d_L mu_s) :
    0 < multiTLum k z M_BH m_dot R_in R_out d_L mu_s := by
  unfold multiTLum
  dsimp only
  have hd := h.hd
  have hp := Real.pi_pos
  have hpos : ∀ nu ∈ nuGrid, 0 < multiTSed k nu z M_BH m_dot R_in R_out d_L mu_s / nu := fun nu hnu =>
    div_pos (C50_positive h (logspace_pos nu hnu)) (logspace_pos nu hnu)
  have hint : 0 < over trapz nuGrid fun nu => multiTSed k nu z M_BH m_dot R_in R_out d_L mu_s / nu := by
    refine lt_of_le_of_ne (over_trapz_nonneg (nuGrid_strict.imp fun _ _ h => h.le) fun nu hnu => (hpos nu hnu).le)
      fun e => ?_
    have hl : nuGrid.length = 100 := by simp [nuGrid, logspace, linspace]
    obtain ⟨x, hx⟩ : ∃ x, x ∈ nuGrid := List.exists_mem_of_length_pos (by omega)
    have h0 := (over_trapz_eq_zero_iff nuGrid_strict (by omega) fun nu hnu => (hpos nu hnu).le).1 e.symm x hx
    exact (hpos x hx).ne' h0
  unfold over at hint
  positivity

/-- C50: the normalised SED, integrated over the frequencies of the grid and over both sides of the disk, is `L_disk` -/
theorem C50_luminosity (h : Observed k z M_BH m_dot R_in R_out d_L mu_s) (L_disk : ℝ) :
    2 * (4 * Real.pi * d_L ^ 2
      * trapz (nuGrid.map fun nu => multiTNormSed k nu z L_disk M_BH m_dot R_in R_out d_L mu_s / nu) nuGrid) = L_disk := by
  have hL := (multiTLum_pos h).ne'
  have e : trapz (nuGrid.map fun nu => multiTNormSed k nu z L_disk M_BH m_dot R_in R_out d_L mu_s / nu) nuGrid
      = L_disk / multiTLum k z M_BH m_dot R_in R_out d_L mu_s
        * trapz (nuGrid.map fun nu => multiTSed k nu z M_BH m_dot R_in R_out d_L mu_s / nu) nuGrid := by
    rw [← C33_trapz_scale, List.map_map]
    congr 1
    apply List.map_congr_left
    intro nu _
    unfold multiTNormSed
    dsimp only [Function.comp]
    ring
  rw [e]
  have e2 : multiTLum k z M_BH m_dot R_in R_out d_L mu_s = 2 * (trapz (nuGrid.map fun nu =>
    multiTSed k nu z M_BH m_dot R_in R_out d_L mu_s / nu) nuGrid * (4 * Real.pi * d_L ^ 2)) := rfl
  generalize trapz (nuGrid.map fun nu => multiTSed k nu z M_BH m_dot R_in R_out d_L mu_s / nu) nuGrid = I at e2 ⊢
  have : 2 * (4 * Real.pi * d_L ^ 2 * (L_disk / multiTLum k z M_BH m_dot R_in R_out d_L mu_s * I))
      = L_disk / multiTLum k z M_BH m_dot R_in R_out d_L mu_s * (2 * (I * (4 * Real.pi * d_L ^ 2))) := by ring
  rw [this, ← e2, div_mul_cancel₀ _ hL]

theorem multiTSed_mu_s (k : Consts) (nu z M_BH m_dot R_in R_out d_L mu_s : ℝ) :
    multiTSed k nu z M_BH m_dot R_in R_out d_L mu_s = mu_s * multiTSed k nu z M_BH m_dot R_in R_out d_L 1 := by
  unfold multiTSed
  ring

/-- C50: the normalised SED does not depend on the viewing angle, although the SED itself is proportional to its cosine -/
theorem C50_viewing_angle (nu L_disk : ℝ) (k : Consts) (z M_BH m_dot R_in R_out d_L : ℝ) {mu_s : ℝ} (hm : mu_s ≠ 0) :
    multiTNormSed k nu z L_disk M_BH m_dot R_in R_out d_L mu_s = multiTNormSed k nu z L_disk M_BH m_dot R_in R_out d_L 1
      := by
  have e : multiTLum k z M_BH m_dot R_in R_out d_L mu_s = mu_s * multiTLum k z M_BH m_dot R_in R_out d_L 1 := by
    unfold multiTLum
    dsimp only
    have : (nuGrid.map fun nu => multiTSed k nu z M_BH m_dot R_in R_out d_L mu_s / nu)
        = (nuGrid.map fun nu => multiTSed k nu z M_BH m_dot R_in R_out d_L 1 / nu).map (mu_s * ·) := by
      rw [List.map_map]
      apply List.map_congr_left
      intro nu _
      rw [multiTSed_mu_s]
      dsimp only [Function.comp]
      ring
    rw [this, C33_trapz_scale]
    ring
  unfold multiTNormSed
  dsimp only
  rw [e, multiTSed_mu_s]
  field_simp

/-- a disk to which C50 applies -/
example : Observed unitConsts 1 1 1 6 200 10 (1 / 2) := by
  refine ⟨unitConsts_pos, ?_, ?_, ?_, ?_, ?_, ?_, ?_⟩ <;> norm_num

end Verif.Targets.SSDisk
