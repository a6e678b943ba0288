import Mathlib.Analysis.SpecialFunctions.Integrals.Basic
import Verif.Props.Blob
import Verif.Props.Disk

/- C48: energy densities in the frame of the blob. -/

namespace Verif.Targets

open MathUtils Region Geometry Absorption

/-- the transformation of the energy density of photons at angle of cosine `mu` to the axis, for a blob moving along the
axis: `Γ² (1 - β μ)²` -/
noncomputable def weight (b : Blob) (mu : ℝ) : ℝ := b.Gamma ^ 2 * (1 - b.Beta * mu) ^ 2

/-- C48: point source, whose photons move along the axis -/
theorem C48_ps (k : Consts) (t : PS) (r : ℝ) {b : Blob} (h : 1 ≤ b.Gamma) :
    t.u k r (some b) = weight b 1 * t.u k r none := by
  have hg : 0 < b.Gamma := by linarith
  have hb := (Blob.C46_beta h).1.1
  have hgb := Blob.gamma_beta h
  unfold PS.u weight
  dsimp only
  have e : b.Gamma ^ 2 * (1 - b.Beta * 1) ^ 2 = 1 / (b.Gamma ^ 2 * (1 + b.Beta) ^ 2) := by
    rw [eq_div_iff (by positivity)]
    have : b.Gamma ^ 2 * (1 - b.Beta * 1) ^ 2 * (b.Gamma ^ 2 * (1 + b.Beta) ^ 2)
        = (b.Gamma ^ 2 * (1 - b.Beta ^ 2)) ^ 2 := by ring
    rw [this, hgb, one_pow]
  rw [e]
  ring

/-- C48: the torus, whose photons come from one distance and angle -/
theorem C48_dt (k : Consts) (t : DT) (r : ℝ) (b : Blob) :
    t.u k r (some b) = weight b (r / xReRing t.R_dt r) * t.u k r none := by
  unfold DT.u weight xReRing
  ring

/-- C48: an isotropic field, averaged over all directions -/
theorem C48_cmb (t : CMB) (b : Blob) :
    t.u (some b) = (1 / 2 * ∫ mu in (-1 : ℝ)..1, weight b mu) * t.u none := by
  have e : ∫ mu in (-1 : ℝ)..1, weight b mu = 2 * (b.Gamma ^ 2 * (1 + b.Beta ^ 2 / 3)) := by
    have h : ∀ mu : ℝ, weight b mu = b.Gamma ^ 2 * (1 + (-2 * b.Beta) * mu + b.Beta ^ 2 * mu ^ 2) := by
      intro mu; unfold weight; ring
    simp only [h]
    rw [intervalIntegral.integral_const_mul, intervalIntegral.integral_add, intervalIntegral.integral_add,
      intervalIntegral.integral_const_mul, intervalIntegral.integral_const_mul, integral_id, integral_pow]
    · simp
      ring
    all_goals apply Continuous.intervalIntegrable; fun_prop
  rw [e]
  unfold CMB.u
  ring

/-- the code's factor for the disk is the transformation of the energy density -/
theorem boost_eq {b : Blob} (h : 1 ≤ b.Gamma) {mu : ℝ} (hm : mu ≤ 1) : SSDisk.boost b mu = weight b mu := by
  have hg : 0 < b.Gamma := by linarith
  obtain ⟨hb0, hb1⟩ := (Blob.C46_beta h).1
  have hgb := Blob.gamma_beta h
  unfold SSDisk.boost weight
  dsimp only
  have hd : 0 < 1 - b.Beta * mu := by nlinarith
  have e : 1 + b.Beta * ((mu - b.Beta) / (1 - b.Beta * mu)) = 1 / (b.Gamma ^ 2 * (1 - b.Beta * mu)) := by
    rw [eq_div_iff (by positivity)]
    have : (1 + b.Beta * ((mu - b.Beta) / (1 - b.Beta * mu))) * (b.Gamma ^ 2 * (1 - b.Beta * mu))
        = b.Gamma ^ 2 * (1 - b.Beta ^ 2) := by
      field_simp
      ring
    rw [this, hgb]
  rw [e]
  field_simp

/-- energy density at `r` above the disk from each of the angles under which it is seen, weighted by `w` -/
noncomputable def diskDensity (k : Consts) (d : SSDisk) (r : ℝ) (w : ℝ → ℝ) : ℝ :=
  3 * d.L_disk * d.R_g k / (8 * Real.pi * k.c * d.eta * r ^ 3)
    * trapz ((SSDisk.muFromRTilde (d.R_in_tilde k) (d.R_out_tilde k) (r / d.R_g k) 100).map fun mu =>
        w mu * (1 / mu * (mu ^ (-2 : ℤ) - 1) ^ (-3 / 2 : ℝ)
          * SSDisk.phiDisk (d.R_in_tilde k) (SSDisk.radius mu (r / d.R_g k))))
        (SSDisk.muFromRTilde (d.R_in_tilde k) (d.R_out_tilde k) (r / d.R_g k) 100)

theorem R_g_pos {k : Consts} (hk : k.Pos) {d : SSDisk} {r : ℝ} (hd : DiskOK d r) : 0 < d.R_g k := by
  unfold SSDisk.R_g
  have := hk.G; have := hk.c; have := hd.M_BH
  positivity

theorem disk_grid {k : Consts} (hk : k.Pos) {d : SSDisk} {r : ℝ} (hd : DiskOK d r) :
    0 < d.R_in_tilde k ∧ d.R_in_tilde k < d.R_out_tilde k ∧ 0 < r / d.R_g k := by
  have h := R_g_pos hk hd
  have := hd.R_in; have := hd.r
  unfold SSDisk.R_in_tilde SSDisk.R_out_tilde
  exact ⟨by positivity, div_lt_div_of_pos_right hd.R_out h, by positivity⟩

theorem edd {k : Consts} (hk : k.Pos) {d : SSDisk} {r : ℝ} (hd : DiskOK d r) :
    SSDisk.l_Edd k d.L_disk d.M_BH * SSDisk.L_Edd k d.M_BH = d.L_disk := by
  unfold SSDisk.l_Edd
  apply div_mul_cancel₀
  unfold SSDisk.L_Edd SSDisk.M_8
  have := hk.M_sun; have := hd.M_BH
  positivity

/-- C48: the energy density of the disk in the frame of the blob is that at rest with every angle weighted by the
transformation -/
theorem C48_disk {k : Consts} (hk : k.Pos) {d : SSDisk} {r : ℝ} (hd : DiskOK d r) :
    d.u k r none = diskDensity k d r (fun _ => 1)
      ∧ ∀ b : Blob, 1 ≤ b.Gamma → d.u k r (some b) = diskDensity k d r (weight b) := by
  obtain ⟨h0, h1, h2⟩ := disk_grid hk hd
  have hpre : 3 * SSDisk.l_Edd k d.L_disk d.M_BH * SSDisk.L_Edd k d.M_BH = 3 * d.L_disk := by
    rw [mul_assoc, edd hk hd]
  constructor
  · unfold SSDisk.u diskDensity
    dsimp only
    rw [hpre]
    congr 1
    apply over_congr
    intro mu _
    rw [one_mul]
    rfl
  · intro b hb
    unfold SSDisk.u diskDensity
    dsimp only
    rw [hpre]
    congr 1
    apply over_congr
    intro mu hmu
    rw [boost_eq hb ((SSDisk.C49_grid h0 h1 h2 (by norm_num)).2.2.1 mu hmu).2.2.le, mul_comm]
    rfl

theorem weight_antitone {b : Blob} (h : 1 ≤ b.Gamma) {m m' : ℝ} (hm : m ≤ m') (hm' : m' ≤ 1) : weight b m' ≤ weight b m := by
  obtain ⟨hb0, hb1⟩ := (Blob.C46_beta h).1
  unfold weight
  apply mul_le_mul_of_nonneg_left _ (sq_nonneg _)
  apply pow_le_pow_left₀ <;> nlinarith

theorem diskDensity_mono {k : Consts} (hk : k.Pos) {d : SSDisk} {r : ℝ} (hd : DiskOK d r) {w w' : ℝ → ℝ}
    (h : ∀ mu ∈ Set.Icc (SSDisk.zenith (d.R_out_tilde k) (r / d.R_g k)) (SSDisk.zenith (d.R_in_tilde k) (r / d.R_g k)),
      w mu ≤ w' mu) : diskDensity k d r w ≤ diskDensity k d r w' := by
  obtain ⟨h0, h1, h2⟩ := disk_grid hk hd
  unfold diskDensity
  apply mul_le_mul_of_nonneg_left
  · apply C33_trapz_mono _ _ _ ((SSDisk.C49_grid h0 h1 h2 (by norm_num)).1.imp fun _ _ h => h.le)
    intro mu hmu
    obtain ⟨ha, hb, hc⟩ := (SSDisk.C49_grid h0 h1 h2 (by norm_num)).2.2.1 mu hmu
    have hphi := (SSDisk.C49_profile h0 (SSDisk.C49_in_disk h0 h1 h2 (by norm_num) hmu).1).1.1
    apply mul_le_mul_of_nonneg_right (h mu ha)
    have : 1 ≤ mu ^ (-2 : ℤ) := by
      rw [zpow_neg, show (2 : ℤ) = ((2 : ℕ) : ℤ) from rfl, zpow_natCast]
      exact (one_le_inv₀ (by positivity)).2 (pow_le_one₀ hb.le hc.le)
    have : 0 ≤ mu ^ (-2 : ℤ) - 1 := by linarith
    positivity
  · have := hd.L_disk; have := R_g_pos hk hd; have := hd.eta; have := hd.r; have := hk.c; have := Real.pi_pos
    positivity

theorem diskDensity_const {k : Consts} (d : SSDisk) (r c : ℝ) :
    diskDensity k d r (fun _ => c) = c * diskDensity k d r fun _ => 1 := by
  unfold diskDensity
  simp only [one_mul]
  have := over_scale homogeneous_trapz (SSDisk.muFromRTilde (d.R_in_tilde k) (d.R_out_tilde k) (r / d.R_g k) 100)
    (fun mu => 1 / mu * (mu ^ (-2 : ℤ) - 1) ^ (-3 / 2 : ℝ)
          * SSDisk.phiDisk (d.R_in_tilde k) (SSDisk.radius mu (r / d.R_g k))) c
  unfold over at this
  rw [this]
  ring

/-- C48: so for the disk it is diminished at least as the photons of its outer edge and at most as those of its inner
edge; in particular it is not negative -/
theorem C48_disk_bounds {k : Consts} (hk : k.Pos) {d : SSDisk} {r : ℝ} (hd : DiskOK d r) {b : Blob} (hb : 1 ≤ b.Gamma) :
    weight b (SSDisk.zenith (d.R_in_tilde k) (r / d.R_g k)) * d.u k r none ≤ d.u k r (some b)
      ∧ d.u k r (some b) ≤ weight b (SSDisk.zenith (d.R_out_tilde k) (r / d.R_g k)) * d.u k r none
      ∧ 0 ≤ d.u k r none := by
  obtain ⟨h0, h1, h2⟩ := disk_grid hk hd
  have hz := SSDisk.zenith_mem h0 h2
  have hle := SSDisk.C49_decreasing h0.le h1 h2
  rw [(C48_disk hk hd).1, (C48_disk hk hd).2 b hb, ← diskDensity_const, ← diskDensity_const]
  refine ⟨diskDensity_mono hk hd fun mu hmu => ?_, diskDensity_mono hk hd fun mu hmu => ?_, ?_⟩
  · exact weight_antitone hb hmu.2 hz.2.le
  · exact weight_antitone hb hmu.1 (hmu.2.trans hz.2.le)
  · have h := diskDensity_mono hk hd (w := fun _ => 0) (w' := fun _ => 1) fun _ _ => zero_le_one
    rw [diskDensity_const, zero_mul] at h
    exact h

/-! ### the broad line region -/

/-- energy density at `r` from the elements of the shell, weighted by a function of the cosine of the angle of their
photons to the axis -/
noncomputable def shellDensity (k : Consts) (t : BLR) (r : ℝ) (w : ℝ → ℝ) : ℝ :=
  t.xi_line * t.L_disk / (8 * Real.pi * k.c)
    * trapz ((linspace (-1) 1 50).map fun mu => 1 / xReShell mu t.R_line r ^ 2 * w (muStarShell mu t.R_line r))
        (linspace (-1) 1 50)

theorem shell_sq {R r mu : ℝ} (hm : mu ∈ Set.Icc (-1) 1) :
    xReShell mu R r ^ 2 = r ^ 2 + R ^ 2 - 2 * r * R * mu := by
  unfold xReShell
  rw [Real.sq_sqrt]
  · ring
  · nlinarith [hm.1, hm.2, sq_nonneg (r - R), sq_nonneg (r + R)]

/-- the angle `u` uses: the code drops the sign -/
theorem blr_angle {R r mu : ℝ} (hR : 0 < R) (hr : 0 < r) (hne : r ≠ R) (hm : mu ∈ Set.Icc (-1) 1) :
    √(1 - R ^ 2 / (r ^ 2 + R ^ 2 - 2 * r * R * mu) * (1 - mu ^ 2)) = |muStarShell mu R r| := by
  have hx := shell_pos hR hr hne hm.2
  have hp : 0 < R ^ 2 + r ^ 2 - 2 * r * R * mu := Real.sqrt_pos.1 hx
  rw [muStarShell_eq hm hp, ← Real.sqrt_sq_eq_abs, div_pow, shell_sq hm]
  congr 1
  have hD : r ^ 2 + R ^ 2 - 2 * r * R * mu ≠ 0 := by linarith
  rw [eq_div_iff hD, sub_mul, one_mul, mul_right_comm (R ^ 2 / _), div_mul_cancel₀ _ hD]
  ring

theorem blr_rest (k : Consts) (t : BLR) (r : ℝ) : t.u k r none = shellDensity k t r fun _ => 1 := by
  unfold BLR.u shellDensity
  dsimp only
  congr 1
  apply over_congr
  intro mu hmu
  rw [shell_sq (linspace_mem (by norm_num) (by norm_num) hmu), mul_one]

theorem blr_moving (k : Consts) {t : BLR} (hR : 0 < t.R_line) {r : ℝ} (hr : 0 < r) (hne : r ≠ t.R_line) (b : Blob) :
    t.u k r (some b) = shellDensity k t r fun c => weight b |c| := by
  unfold BLR.u shellDensity
  dsimp only
  congr 1
  apply over_congr
  intro mu hmu
  have hm := linspace_mem (by norm_num) (by norm_num) hmu
  rw [shell_sq hm, blr_angle hR hr hne hm]
  rfl

/-- C48: the microwave background at redshift `z` is that of a black body of temperature 2.72548 K (1+z): energy density
`a T^4` and mean photon energy `2.7 k T` -/
theorem C48_cmb_temperature (k : Consts) (z : ℝ) :
    ∃ T : ℝ, T = 2.72548 * (1 + z) ∧ (CMB.new k z).u none = 7.5657e-15 * T ^ 4
      ∧ (CMB.new k z).epsilon_0 = 2.7 * k.k_B * T / (k.m_e * k.c ^ 2) := by
  refine ⟨_, rfl, ?_, ?_⟩
  · unfold CMB.u CMB.new
    dsimp only
    norm_num
    ring
  · unfold CMB.new Consts.mec2
    dsimp only
    norm_num
    ring

/-- C48 for the broad line region, outside of it; inside the claim fails, see `C48_blr_violated` -/
theorem C48_blr_partial (k : Consts) {t : BLR} (hR : 0 < t.R_line) {r : ℝ} (hr : t.R_line < r) (b : Blob) :
    t.u k r none = shellDensity k t r (fun _ => 1) ∧ t.u k r (some b) = shellDensity k t r (weight b) := by
  refine ⟨blr_rest k t r, ?_⟩
  rw [blr_moving k hR (hR.trans hr) hr.ne' b]
  unfold shellDensity
  congr 2
  apply List.map_congr_left
  intro mu hmu
  have hm := linspace_mem (by norm_num) (by norm_num) hmu
  have hx := shell_pos hR (hR.trans hr) hr.ne' hm.2
  have hp : 0 < t.R_line ^ 2 + r ^ 2 - 2 * r * t.R_line * mu := Real.sqrt_pos.1 hx
  have : 0 ≤ muStarShell mu t.R_line r := by
    rw [muStarShell_eq hm hp]
    apply div_nonneg _ hx.le
    nlinarith [hm.2]
  dsimp only
  rw [abs_of_nonneg this]

/-- C48 does not hold inside the shell: photons that come from ahead of the blob are treated as if they came from
behind, and the energy density in the frame of the blob is too small -/
theorem C48_blr_violated {k : Consts} (hk : k.Pos) {t : BLR} (hR : 0 < t.R_line) (hL : 0 < t.L_disk) (hx : 0 < t.xi_line)
    {r : ℝ} (h0 : 0 < r) (hr : r < t.R_line) {b : Blob} (hb : 1 < b.Gamma) :
    t.u k r (some b) < shellDensity k t r (weight b) := by
  obtain ⟨hb0, hb1⟩ := (Blob.C46_beta hb.le).1
  have hbp := Blob.beta_pos hb
  rw [blr_moving k hR h0 hr.ne b]
  unfold shellDensity
  have hpre : 0 < t.xi_line * t.L_disk / (8 * Real.pi * k.c) := by
    have := hk.c; have := Real.pi_pos
    positivity
  apply mul_lt_mul_of_pos_left _ hpre
  set f := fun mu => 1 / xReShell mu t.R_line r ^ 2 * weight b |muStarShell mu t.R_line r| with hf
  set g := fun mu => 1 / xReShell mu t.R_line r ^ 2 * weight b (muStarShell mu t.R_line r) with hg
  have hc := linspace_strict (a := -1) (b := 1) (by norm_num) (n := 50) (by norm_num)
  have hmem := fun mu (hmu : mu ∈ linspace (-1) 1 50) =>
    linspace_mem (a := -1) (b := 1) (by norm_num) (n := 50) (by norm_num) (x := mu) hmu
  have hle : ∀ mu ∈ linspace (-1) 1 50, 0 ≤ g mu - f mu := by
    intro mu hmu
    have hm := hmem mu hmu
    have hxp := shell_pos hR h0 hr.ne hm.2
    have hs := C35_range hm hxp.ne'
    have hw := weight_antitone hb.le (le_abs_self (muStarShell mu t.R_line r)) (abs_le.2 hs)
    rw [hf, hg]
    dsimp only
    rw [← mul_sub]
    apply mul_nonneg (by positivity)
    linarith
  have hadd := C33_trapz_add f (fun mu => g mu - f mu) (linspace (-1) 1 50)
  simp only [add_sub_cancel] at hadd
  have hnn := over_trapz_nonneg (hc.imp fun _ _ h => h.le) hle
  have hne : over trapz (linspace (-1) 1 50) (fun mu => g mu - f mu) ≠ 0 := by
    intro e
    have h1 := (over_trapz_eq_zero_iff hc (by rw [linspace_length]; norm_num) hle).1 e 1
      (List.mem_map.2 ⟨49, by simp, by norm_num⟩)
    have hm1 : (1 : ℝ) ∈ Set.Icc (-1) 1 := by norm_num
    have hxp := shell_pos hR h0 hr.ne hm1.2
    have hp : 0 < t.R_line ^ 2 + r ^ 2 - 2 * r * t.R_line * 1 := Real.sqrt_pos.1 hxp
    have hs : xReShell 1 t.R_line r = t.R_line - r := by
      unfold xReShell
      rw [show t.R_line ^ 2 + r ^ 2 - 2 * r * t.R_line * 1 = (t.R_line - r) ^ 2 by ring]
      exact Real.sqrt_sq (by linarith)
    have hmu : muStarShell 1 t.R_line r = -1 := by
      rw [muStarShell_eq hm1 hp, hs, div_eq_iff (by linarith)]
      ring
    rw [hf, hg] at h1
    dsimp only at h1
    rw [hmu, abs_neg, abs_one, ← mul_sub] at h1
    have hG : 0 < b.Gamma := by linarith
    have hw : 0 < weight b (-1) - weight b 1 := by
      unfold weight
      have : b.Gamma ^ 2 * (1 - b.Beta * -1) ^ 2 - b.Gamma ^ 2 * (1 - b.Beta * 1) ^ 2 = b.Gamma ^ 2 * (4 * b.Beta) := by
        ring
      rw [this]
      positivity
    have : 1 / xReShell 1 t.R_line r ^ 2 * (weight b (-1) - weight b 1) ≠ 0 := by positivity
    exact this h1
  have hpos := lt_of_le_of_ne hnn hne.symm
  unfold over at hpos
  rw [hadd]
  linarith

example : DiskOK ⟨1, 1, 1 / 12, 6, 200⟩ 50 := by constructor <;> norm_num

end Verif.Targets
