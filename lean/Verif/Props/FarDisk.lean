import Verif.Props.FarField

/- C99 for the accretion disk: its far field is that of a point source, but not of its luminosity. -/

noncomputable section

namespace Verif.Targets

open MathUtils Region Absorption Filter Topology Set

/-- power per `R²` of the rings of radius `√s` of a disk of inner radius `a` -/
def ringPower (a s : ℝ) : ℝ := s ^ (-3 / 2 : ℝ) * (1 - √(a / √s))

/-- the disk seen from far away: its rings, summed on 100 points equally spaced in the square of the radius -/
def farSum (a c : ℝ) : ℝ := 1 / 2 * Verif.over trapz (linspace (-c ^ 2) (-a ^ 2) 100) fun x => ringPower a (-x)

theorem trapz_affine {ι : Type*} (y x : ι → ℝ) (p q : ℝ) : ∀ is : List ι,
    trapz (is.map y) (is.map fun i => p * x i + q) = p * trapz (is.map y) (is.map x)
  | [] => by simp [trapz]
  | [i] => by simp [trapz]
  | i :: j :: is => by
    have ih := trapz_affine y x p q (j :: is)
    simp only [List.map_cons] at ih ⊢
    simp only [trapz]
    rw [ih]
    ring

/-- directions of the rings of radius `R`, seen from far away -/
theorem tendsto_zenith (R : ℝ) : Tendsto (fun ρ : ℝ => ρ ^ 2 * (1 - 1 / √(1 + (R / ρ) ^ 2))) atTop (𝓝 (R ^ 2 / 2)) := by
  have hs : Tendsto (fun ρ : ℝ => √(1 + R ^ 2 / ρ ^ 2)) atTop (𝓝 1) := by
    have := ((tendsto_const_div_sq (R ^ 2)).const_add 1).sqrt
    rwa [add_zero, Real.sqrt_one] at this
  have h := (tendsto_const_nhds (x := R ^ 2) (f := atTop)).div (hs.mul (hs.const_add 1)) (by norm_num)
  rw [show (1 : ℝ) * (1 + 1) = 2 by norm_num] at h
  refine h.congr' ?_
  filter_upwards [eventually_gt_atTop 0] with ρ hρ
  show R ^ 2 / (√(1 + R ^ 2 / ρ ^ 2) * (1 + √(1 + R ^ 2 / ρ ^ 2))) = _
  rw [div_pow]
  have h0 : 0 ≤ R ^ 2 / ρ ^ 2 := by positivity
  have h1 : 0 < √(1 + R ^ 2 / ρ ^ 2) := Real.sqrt_pos.2 (by linarith)
  have h2 : √(1 + R ^ 2 / ρ ^ 2) ^ 2 = 1 + R ^ 2 / ρ ^ 2 := Real.sq_sqrt (by linarith)
  have h3 : R ^ 2 = ρ ^ 2 * (√(1 + R ^ 2 / ρ ^ 2) ^ 2 - 1) := by
    rw [h2]
    field_simp
    ring
  generalize √(1 + R ^ 2 / ρ ^ 2) = w at *
  rw [div_eq_iff (by positivity), h3]
  field_simp
  ring

/-- one direction of the grid of the disk, seen from far away -/
theorem tendsto_grid {a s : ℝ} (hs : 0 < s) {m : ℝ → ℝ} (hm : Tendsto (fun ρ => ρ ^ 2 * (1 - m ρ)) atTop (𝓝 (s / 2))) :
    Tendsto (fun ρ => 1 / ρ ^ 3 * (1 / m ρ * (m ρ ^ (-2 : ℤ) - 1) ^ (-3 / 2 : ℝ) * SSDisk.phiDisk a (SSDisk.radius (m ρ) ρ)))
      atTop (𝓝 (ringPower a s)) := by
  have h1 : Tendsto m atTop (𝓝 1) := by
    have h := hm.mul (tendsto_const_div_sq 1)
    rw [mul_zero] at h
    have h' := h.const_sub 1
    rw [sub_zero] at h'
    refine h'.congr' ?_
    filter_upwards [eventually_gt_atTop 0] with ρ hρ
    field_simp
    ring
  have hX : Tendsto (fun ρ => ρ ^ 2 * (m ρ ^ (-2 : ℤ) - 1)) atTop (𝓝 s) := by
    have h := (hm.mul (h1.const_add 1)).div (h1.pow 2) (by norm_num)
    rw [show s / 2 * (1 + 1) / 1 ^ 2 = s by ring] at h
    refine h.congr' ?_
    filter_upwards [h1.eventually_ne one_ne_zero] with ρ hρ
    show ρ ^ 2 * (1 - m ρ) * (1 + m ρ) / m ρ ^ 2 = _
    rw [zpow_neg]
    norm_cast
    field_simp
    ring
  have hp : ∀ᶠ ρ in atTop, 0 < ρ ^ 2 * (m ρ ^ (-2 : ℤ) - 1) := hX.eventually (lt_mem_nhds hs)
  have hpow := hX.rpow_const (p := (-3 / 2 : ℝ)) (.inl hs.ne')
  have hphi : Tendsto (fun ρ => 1 - √(a / √(ρ ^ 2 * (m ρ ^ (-2 : ℤ) - 1)))) atTop (𝓝 (1 - √(a / √s))) :=
    ((tendsto_const_nhds.div hX.sqrt (Real.sqrt_pos.2 hs).ne').sqrt).const_sub 1
  have h := ((tendsto_const_nhds (x := (1 : ℝ)) (f := atTop)).div h1 one_ne_zero).mul (hpow.mul hphi)
  rw [div_one, one_mul] at h
  refine h.congr' ?_
  filter_upwards [hp, eventually_gt_atTop 0] with ρ hpos hρ
  have hX0 : 0 < m ρ ^ (-2 : ℤ) - 1 := (pos_iff_pos_of_mul_pos hpos).1 (by positivity)
  show 1 / m ρ * ((ρ ^ 2 * (m ρ ^ (-2 : ℤ) - 1)) ^ (-3 / 2 : ℝ) * (1 - √(a / √(ρ ^ 2 * (m ρ ^ (-2 : ℤ) - 1))))) = _
  unfold SSDisk.phiDisk SSDisk.radius
  rw [Real.mul_rpow (by positivity) hX0.le, Real.sqrt_mul (by positivity), Real.sqrt_sq hρ.le,
    show (ρ ^ 2) ^ (-3 / 2 : ℝ) = 1 / ρ ^ 3 by
      rw [← Real.rpow_natCast, ← Real.rpow_mul hρ.le, show ((2 : ℕ) : ℝ) * (-3 / 2) = -((3 : ℕ) : ℝ) by norm_num,
        Real.rpow_neg hρ.le, Real.rpow_natCast, one_div]]
  ring

theorem tendsto_farSum {a c : ℝ} (ha : 0 < a) (hac : a < c) :
    Tendsto (fun ρ => 1 / ρ * Verif.over trapz (SSDisk.muFromRTilde a c ρ 100) fun mu =>
      1 / mu * (mu ^ (-2 : ℤ) - 1) ^ (-3 / 2 : ℝ) * SSDisk.phiDisk a (SSDisk.radius mu ρ)) atTop (𝓝 (farSum a c)) := by
  let m : ℕ → ℝ → ℝ := fun i ρ => 1 / √(1 + (c / ρ) ^ 2)
    + (i : ℝ) * ((1 / √(1 + (a / ρ) ^ 2) - 1 / √(1 + (c / ρ) ^ 2)) / (((100 : ℕ) : ℝ) - 1))
  let X : ℕ → ℝ := fun i => -c ^ 2 + (i : ℝ) * ((-a ^ 2 - -c ^ 2) / (((100 : ℕ) : ℝ) - 1))
  have hm : ∀ i, Tendsto (fun ρ => ρ ^ 2 * (1 - m i ρ)) atTop (𝓝 (-X i / 2)) := by
    intro i
    have h := ((tendsto_zenith c).add ((((tendsto_zenith a).sub (tendsto_zenith c)).div_const (((100 : ℕ) : ℝ) - 1)).const_mul
      (i : ℝ)))
    rw [show c ^ 2 / 2 + (i : ℝ) * ((a ^ 2 / 2 - c ^ 2 / 2) / (((100 : ℕ) : ℝ) - 1)) = -X i / 2 by
      simp only [X]; ring] at h
    refine h.congr fun ρ => ?_
    simp only [m]
    ring
  have hX : ∀ i ∈ List.range 100, 0 < -X i := by
    intro i hi
    have h1 : X i ∈ linspace (-c ^ 2) (-a ^ 2) 100 := List.mem_map.2 ⟨i, hi, rfl⟩
    have h2 := (linspace_mem (by nlinarith) (by norm_num) h1).2
    have : 0 < a ^ 2 := by positivity
    linarith
  have h := tendsto_trapz (l := atTop) (List.range 100) (x := fun i ρ => ρ ^ 2 * m i ρ + -ρ ^ 2)
    (x₀ := fun i => 1 / 2 * X i + 0)
    (y := fun i ρ => 1 / ρ ^ 3 * (1 / m i ρ * (m i ρ ^ (-2 : ℤ) - 1) ^ (-3 / 2 : ℝ)
      * SSDisk.phiDisk a (SSDisk.radius (m i ρ) ρ)))
    (y₀ := fun i => ringPower a (-X i)) (fun i _ => by
      have h := (hm i).neg
      rw [show -(-X i / 2) = 1 / 2 * X i + 0 by ring] at h
      exact h.congr fun ρ => by ring) (fun i hi => tendsto_grid (hX i hi) (hm i))
  rw [trapz_affine] at h
  have e : farSum a c = 1 / 2 * trapz ((List.range 100).map fun i => ringPower a (-X i)) ((List.range 100).map X) := by
    unfold farSum Verif.over linspace
    rw [List.map_map]
    rfl
  rw [e]
  refine h.congr' ?_
  filter_upwards [eventually_gt_atTop 0] with ρ hρ
  rw [trapz_affine]
  have e2 := homogeneous_trapz (1 / ρ ^ 3) ((List.range 100).map fun i => 1 / m i ρ * (m i ρ ^ (-2 : ℤ) - 1) ^ (-3 / 2 : ℝ)
      * SSDisk.phiDisk a (SSDisk.radius (m i ρ) ρ)) ((List.range 100).map fun i => m i ρ)
  rw [List.map_map] at e2
  have e3 : Verif.over trapz (SSDisk.muFromRTilde a c ρ 100) (fun mu =>
      1 / mu * (mu ^ (-2 : ℤ) - 1) ^ (-3 / 2 : ℝ) * SSDisk.phiDisk a (SSDisk.radius mu ρ))
      = trapz ((List.range 100).map fun i => 1 / m i ρ * (m i ρ ^ (-2 : ℤ) - 1) ^ (-3 / 2 : ℝ)
      * SSDisk.phiDisk a (SSDisk.radius (m i ρ) ρ)) ((List.range 100).map fun i => m i ρ) := by
    unfold Verif.over SSDisk.muFromRTilde linspace
    dsimp only
    rw [List.map_map]
    rfl
  rw [e3]
  refine (congrArg (ρ ^ 2 * ·) e2).trans ?_
  field_simp

/-- C99: far away the disk is a point source, of the luminosity the code sums on its grid of directions -/
theorem C99_disk {k : Consts} (hk : k.Pos) {d : SSDisk} (hd : DiskOK d 1) :
    FarLike k (d.u k) (3 / (2 * d.eta) * farSum (d.R_in_tilde k) (d.R_out_tilde k) * d.L_disk) := by
  have hOK : ∀ r, 0 < r → DiskOK d r := fun r hr => ⟨hd.M_BH, hd.L_disk, hd.eta, hd.R_in, hd.R_out, hr⟩
  obtain ⟨h0, h1, -⟩ := disk_grid hk hd
  have hg := R_g_pos hk hd
  have hc := hk.c
  have heta := hd.eta
  have hρ : Tendsto (fun r : ℝ => r / d.R_g k) atTop atTop := tendsto_id.atTop_div_const hg
  have h := ((tendsto_farSum h0 h1).comp hρ).const_mul (3 * d.L_disk / (8 * Real.pi * k.c * d.eta))
  have e : 3 * d.L_disk / (8 * Real.pi * k.c * d.eta) * farSum (d.R_in_tilde k) (d.R_out_tilde k)
      = 3 / (2 * d.eta) * farSum (d.R_in_tilde k) (d.R_out_tilde k) * d.L_disk / (4 * Real.pi * k.c) := by
    have := Real.pi_pos
    field_simp
    ring
  rw [e] at h
  have hrest : Tendsto (fun r => r ^ 2 * d.u k r none) atTop
      (𝓝 (3 / (2 * d.eta) * farSum (d.R_in_tilde k) (d.R_out_tilde k) * d.L_disk / (4 * Real.pi * k.c))) := by
    refine h.congr' ?_
    filter_upwards [eventually_gt_atTop 0] with r hr
    rw [(C48_disk hk (hOK r hr)).1]
    unfold diskDensity
    simp only [one_mul, Function.comp, Verif.over]
    generalize trapz (List.map _ _) _ = S
    have := Real.pi_pos
    field_simp
  refine ⟨hrest, fun b hb => ?_⟩
  have hz : ∀ R, Tendsto (fun r => SSDisk.zenith R (r / d.R_g k)) atTop (𝓝 1) := by
    intro R
    have := (tendsto_ring_angle R).comp hρ
    refine this.congr fun r => ?_
    simp only [Function.comp, SSDisk.zenith, add_comm]
  have hw : ∀ R, Tendsto (fun r => r ^ 2 * (weight b (SSDisk.zenith R (r / d.R_g k)) * d.u k r none)) atTop
      (𝓝 (3 / (2 * d.eta) * farSum (d.R_in_tilde k) (d.R_out_tilde k) * d.L_disk / (4 * Real.pi * k.c)
        / (b.Gamma ^ 2 * (1 + b.Beta) ^ 2))) := by
    intro R
    have h1 : Tendsto (fun r => weight b (SSDisk.zenith R (r / d.R_g k))) atTop (𝓝 (weight b 1)) :=
      ((((hz R).const_mul b.Beta).const_sub 1).pow 2).const_mul _
    have h2 := hrest.mul h1
    rw [weight_one hb, mul_one_div] at h2
    exact h2.congr fun r => by ring
  refine tendsto_of_tendsto_of_tendsto_of_le_of_le' (hw (d.R_in_tilde k)) (hw (d.R_out_tilde k)) ?_ ?_
  · filter_upwards [eventually_gt_atTop 0] with r hr
    exact mul_le_mul_of_nonneg_left (C48_disk_bounds hk (hOK r hr) hb).1 (by positivity)
  · filter_upwards [eventually_gt_atTop 0] with r hr
    exact mul_le_mul_of_nonneg_left (C48_disk_bounds hk (hOK r hr) hb).2.1 (by positivity)

/-- powers of the radius in terms of `s^(-1/4)` -/
theorem ringPower_eq {a s : ℝ} (ha : 0 ≤ a) (hs : 0 < s) :
    ringPower a s = (s ^ (-1 / 4 : ℝ)) ^ 6 * (1 - √a * s ^ (-1 / 4 : ℝ)) := by
  unfold ringPower
  have h1 : (s ^ (-1 / 4 : ℝ)) ^ 6 = s ^ (-3 / 2 : ℝ) := by
    rw [← Real.rpow_natCast, ← Real.rpow_mul hs.le]
    norm_num
  have h2 : √(a / √s) = √a * s ^ (-1 / 4 : ℝ) := by
    rw [Real.sqrt_div ha, Real.sqrt_eq_rpow s, Real.sqrt_eq_rpow (s ^ (1 / 2 : ℝ)), ← Real.rpow_mul hs.le, div_eq_mul_inv,
      ← Real.rpow_neg hs.le]
    norm_num
  rw [h1, h2]

theorem integral_ringPower {a x y : ℝ} (ha : 0 ≤ a) (hxy : x ≤ y) (hy : y < 0) :
    ∫ t in x..y, ringPower a (-t) = 2 * ((-y) ^ (-1 / 4 : ℝ)) ^ 2 * (1 - 2 / 3 * √a * (-y) ^ (-1 / 4 : ℝ))
      - 2 * ((-x) ^ (-1 / 4 : ℝ)) ^ 2 * (1 - 2 / 3 * √a * (-x) ^ (-1 / 4 : ℝ)) := by
  have hd : ∀ t ∈ uIcc x y, HasDerivAt (fun t => 2 * ((-t) ^ (-1 / 4 : ℝ)) ^ 2 * (1 - 2 / 3 * √a * (-t) ^ (-1 / 4 : ℝ)))
      (ringPower a (-t)) t := by
    intro t ht
    rw [uIcc_of_le hxy] at ht
    have h0 : 0 < -t := by linarith [ht.2]
    have h := (hasDerivAt_neg t).rpow_const (p := (-1 / 4 : ℝ)) (.inl h0.ne')
    have h2 := ((h.pow 2).const_mul 2).mul ((h.const_mul (2 / 3 * √a)).const_sub 1)
    refine h2.congr_deriv ?_
    rw [ringPower_eq ha h0]
    have e : (-t) ^ ((-1 / 4 : ℝ) - 1) = ((-t) ^ (-1 / 4 : ℝ)) ^ 5 := by
      rw [← Real.rpow_natCast, ← Real.rpow_mul h0.le]
      norm_num
    rw [e]
    norm_num
    ring
  refine intervalIntegral.integral_eq_sub_of_hasDerivAt hd (ContinuousOn.intervalIntegrable ?_)
  rw [uIcc_of_le hxy]
  intro t ht
  have h0 : 0 < -t := by linarith [ht.2]
  unfold ringPower
  refine (ContinuousAt.mul (ContinuousAt.rpow_const (by fun_prop) (.inl h0.ne')) ?_).continuousWithinAt
  have : √(-t) ≠ 0 := (Real.sqrt_pos.2 h0).ne'
  have hq : ContinuousAt (fun t : ℝ => a / √(-t)) t := ContinuousAt.div (by fun_prop) (by fun_prop) this
  exact continuousAt_const.sub hq.sqrt

/-- the power per `R²` falls outwards of the radius `49/36` of the inner one -/
theorem ringPower_antitone {a s s' : ℝ} (ha : 0 ≤ a) (h0 : 0 < s) (hs : √a * s ^ (-1 / 4 : ℝ) ≤ 6 / 7) (h : s ≤ s') :
    ringPower a s' ≤ ringPower a s := by
  have h1 : s' ^ (-1 / 4 : ℝ) ≤ s ^ (-1 / 4 : ℝ) := Real.rpow_le_rpow_of_nonpos h0 h (by norm_num)
  have h2 : 0 ≤ s' ^ (-1 / 4 : ℝ) := Real.rpow_nonneg (by linarith) _
  rw [ringPower_eq ha h0, ringPower_eq ha (by linarith)]
  generalize s' ^ (-1 / 4 : ℝ) = u at *
  generalize s ^ (-1 / 4 : ℝ) = v at *
  have hA : 0 ≤ √a := Real.sqrt_nonneg a
  generalize √a = A at *
  have hmono : MonotoneOn (fun x : ℝ => x ^ 6 * (1 - A * x)) (Icc 0 v) := by
    refine monotoneOn_of_deriv_nonneg (convex_Icc 0 v) (by fun_prop) (by fun_prop) fun x hx => ?_
    rw [interior_Icc] at hx
    have hd : HasDerivAt (fun x : ℝ => x ^ 6 * (1 - A * x)) (6 * x ^ 5 * (1 - A * x) + x ^ 6 * (-A)) x := by
      have := ((hasDerivAt_id x).pow 6).mul (((hasDerivAt_id x).const_mul A).const_sub 1)
      refine this.congr_deriv ?_
      norm_num
    rw [hd.deriv]
    have h3 : A * x ≤ 6 / 7 := (mul_le_mul_of_nonneg_left hx.2.le hA).trans hs
    have h4 : 0 < x ^ 5 := pow_pos hx.1 5
    nlinarith
  exact hmono ⟨h2, h1⟩ ⟨h2.trans h1, le_refl v⟩ h1

theorem trapz_append {f : ℝ → ℝ} {y z : ℝ} : ∀ xs : List ℝ,
    Verif.over trapz (xs ++ [y, z]) f = Verif.over trapz (xs ++ [y]) f + (z - y) * (f y + f z) / 2
  | [] => by simp [Verif.over, trapz]
  | [x] => by simp [Verif.over, trapz]
  | x :: x' :: xs => by
    have ih := trapz_append (f := f) (y := y) (z := z) (x' :: xs)
    have e : ∀ l : List ℝ, Verif.over trapz (x :: x' :: xs ++ l) f
        = (x' - x) * (f x + f x') / 2 + Verif.over trapz (x' :: xs ++ l) f := fun l => by
      simp [Verif.over, trapz]
    rw [e, e, ih]
    ring

/-- the sum for the default radii -/
theorem farSum_default : farSum 6 200 * 18 < 2 / 3 := by
  have hgrid : linspace (-200 ^ 2) (-6 ^ 2) 100 = (-40000 :: ((List.range 97).map fun i : ℕ =>
      (-200 ^ 2 : ℝ) + ((i + 1 : ℕ) : ℝ) * ((-6 ^ 2 - -200 ^ 2) / (((100 : ℕ) : ℝ) - 1)))) ++ [-(43528 / 99), -36] := by
    unfold linspace
    rw [show List.range 100 = 0 :: ((List.range 97).map Nat.succ ++ [98, 99]) by decide]
    simp only [List.map_cons, List.map_append, List.map_map, List.map_nil, Function.comp_def, Nat.succ_eq_add_one]
    norm_num
  have hstep : (linspace (-200 ^ 2) (-6 ^ 2) 100).IsChain (fun u v => u ≤ v ∧ v - u = 39964 / 99) := by
    unfold linspace
    rw [List.isChain_map, List.isChain_range]
    intro m _
    push_cast
    constructor
    · norm_num
    · ring
  unfold farSum
  rw [hgrid, show ∀ (x : ℝ) (l : List ℝ) (y z : ℝ), x :: l ++ [y, z] = (x :: l ++ [y]) ++ [z] by intros; simp] at hstep
  rw [hgrid, trapz_append]
  generalize (List.range 97).map _ = mid at *
  -- the fourth roots
  have h6l : (2449 / 1000 : ℝ) < √6 := Real.lt_sqrt_of_sq_lt (by norm_num)
  have h6u : √6 < (245 / 100 : ℝ) := (Real.sqrt_lt' (by norm_num)).2 (by norm_num)
  have hroot : ∀ s : ℝ, 0 < s → 0 < s ^ (-1 / 4 : ℝ) ∧ (s ^ (-1 / 4 : ℝ)) ^ 4 = 1 / s := by
    intro s hs
    refine ⟨Real.rpow_pos_of_pos hs _, ?_⟩
    rw [← Real.rpow_natCast, ← Real.rpow_mul hs.le, show (-1 / 4 : ℝ) * ((4 : ℕ) : ℝ) = -1 by norm_num, Real.rpow_neg_one, one_div]
  obtain ⟨hv0, hv4⟩ := hroot (43528 / 99) (by norm_num)
  obtain ⟨hu0, hu4⟩ := hroot 40000 (by norm_num)
  have hv1 : (2183 / 10000 : ℝ) < (43528 / 99 : ℝ) ^ (-1 / 4 : ℝ) := by
    refine lt_of_pow_lt_pow_left₀ 4 hv0.le ?_
    rw [hv4]
    norm_num
  have hv2 : (43528 / 99 : ℝ) ^ (-1 / 4 : ℝ) < 2184 / 10000 := by
    refine lt_of_pow_lt_pow_left₀ 4 (by norm_num) ?_
    rw [hv4]
    norm_num
  have hu2 : (40000 : ℝ) ^ (-1 / 4 : ℝ) < 71 / 1000 := by
    refine lt_of_pow_lt_pow_left₀ 4 (by norm_num) ?_
    rw [hu4]
    norm_num
  have huu : ((40000 : ℝ) ^ (-1 / 4 : ℝ)) ^ 2 = 1 / 200 := by
    have h : (((40000 : ℝ) ^ (-1 / 4 : ℝ)) ^ 2) ^ 2 = (1 / 200) ^ 2 := by
      rw [← pow_mul, hu4]
      norm_num
    exact (pow_left_inj₀ (by positivity) (by norm_num) two_ne_zero).1 h
  have hlast : ringPower 6 (- -36) = 0 := by
    unfold ringPower
    rw [neg_neg, show (36 : ℝ) = 6 ^ 2 by norm_num, Real.sqrt_sq (by norm_num)]
    norm_num
  have hrise := (trapz_rise (f := fun x => ringPower 6 (-x)) (b := -(43528 / 99)) (mid ++ [-(43528 / 99)])
    (hstep.left_of_append) (by simp) fun x hx y hy hxy => ringPower_antitone (by norm_num) (by linarith [hy.2]) (by
      have : (-y) ^ (-1 / 4 : ℝ) ≤ (43528 / 99 : ℝ) ^ (-1 / 4 : ℝ) :=
        Real.rpow_le_rpow_of_nonpos (by norm_num) (by linarith [hy.2]) (by norm_num)
      have h2 : 0 ≤ (-y) ^ (-1 / 4 : ℝ) := Real.rpow_nonneg (by linarith [hy.2]) _
      nlinarith) (by linarith)).2
  rw [integral_ringPower (by norm_num) (by norm_num) (by norm_num)] at hrise
  have hfirst : 0 ≤ ringPower 6 (- -40000) := by
    rw [neg_neg, ringPower_eq (by norm_num) (by norm_num)]
    have : √6 * (40000 : ℝ) ^ (-1 / 4 : ℝ) ≤ 1 := by nlinarith
    have : 0 ≤ 1 - √6 * (40000 : ℝ) ^ (-1 / 4 : ℝ) := by linarith
    positivity
  simp only [neg_neg, List.cons_append] at hrise hlast hfirst ⊢
  rw [hlast]
  have hR : ringPower 6 (43528 / 99) = _ := ringPower_eq (by norm_num) (by norm_num)
  rw [hR] at hrise ⊢
  rw [huu] at hrise
  generalize (43528 / 99 : ℝ) ^ (-1 / 4 : ℝ) = v at *
  generalize (40000 : ℝ) ^ (-1 / 4 : ℝ) = u at *
  generalize Verif.over trapz _ _ = S at *
  generalize ringPower 6 40000 = F at *
  generalize √6 = A at *
  have hAv : 2449 / 1000 * (2183 / 10000) ≤ A * v := mul_le_mul h6l.le hv1.le (by norm_num) (by linarith)
  have hAv1 : A * v ≤ 245 / 100 * (2184 / 10000) := mul_le_mul h6u.le hv2.le hv0.le (by norm_num)
  have hAu : A * u ≤ 245 / 100 * (71 / 1000) := mul_le_mul h6u.le hu2.le hu0.le (by norm_num)
  have hv2' : v ^ 2 ≤ (2184 / 10000) ^ 2 := pow_le_pow_left₀ hv0.le hv2.le 2
  have hv6' : v ^ 6 ≤ (2184 / 10000) ^ 6 := pow_le_pow_left₀ hv0.le hv2.le 6
  have hP : v ^ 6 * (1 - A * v) ≤ (2184 / 10000) ^ 6 * (1 - 2449 / 1000 * (2183 / 10000)) :=
    mul_le_mul hv6' (by linarith) (by linarith) (by norm_num)
  have hQ : v ^ 2 * (1 - 2 / 3 * (A * v)) ≤ (2184 / 10000) ^ 2 * (1 - 2 / 3 * (2449 / 1000 * (2183 / 10000))) :=
    mul_le_mul hv2' (by linarith) (by linarith) (by norm_num)
  have e1 : 2 * v ^ 2 * (1 - 2 / 3 * A * v) = 2 * (v ^ 2 * (1 - 2 / 3 * (A * v))) := by ring
  have e2 : 2 * (1 / 200) * (1 - 2 / 3 * A * u) = 1 / 100 * (1 - 2 / 3 * (A * u)) := by ring
  rw [e1, e2] at hrise
  generalize v ^ 6 * (1 - A * v) = P at *
  generalize v ^ 2 * (1 - 2 / 3 * (A * v)) = Q at *
  norm_num at hP hQ hrise ⊢
  linarith

/-- C99: a disk of the default inner and outer radii and efficiency shines far away with less than two thirds of its
luminosity -/
theorem C99_disk_violated {k : Consts} (hk : k.Pos) {d : SSDisk} (hd : DiskOK d 1) (heta : d.eta = 1 / 12)
    (hin : d.R_in_tilde k = 6) (hout : d.R_out_tilde k = 200) (ε : ℝ) :
    ∀ᶠ r in atTop, d.u k r none < 2 / 3 * (⟨d.L_disk, ε⟩ : PS).u k r none := by
  have h := (C99_disk hk hd).1
  rw [heta, hin, hout] at h
  have hc := hk.c
  have hL := hd.L_disk
  have hlt : 3 / (2 * (1 / 12)) * farSum 6 200 * d.L_disk / (4 * Real.pi * k.c) < 2 / 3 * (d.L_disk / (4 * Real.pi * k.c)) := by
    have := farSum_default
    have hp : 0 < d.L_disk / (4 * Real.pi * k.c) := by positivity
    rw [mul_div_assoc]
    refine mul_lt_mul_of_pos_right ?_ hp
    linarith
  filter_upwards [h.eventually_lt_const hlt, eventually_gt_atTop 0] with r h1 hr
  rw [← (PS.far k ⟨d.L_disk, ε⟩ hr).1, mul_left_comm] at h1
  exact lt_of_mul_lt_mul_left h1 (by positivity)

/-- the default disk around a black hole whose gravitational radius is the unit of length -/
example : DiskOK ⟨1, 1, 1 / 12, 6, 200⟩ 1 ∧ (⟨1, 1, 1 / 12, 6, 200⟩ : SSDisk).R_in_tilde ⟨1, 1, 1, 1, 1, 1, 1, 1, 1, 1⟩ = 6
    ∧ (⟨1, 1, 1 / 12, 6, 200⟩ : SSDisk).R_out_tilde ⟨1, 1, 1, 1, 1, 1, 1, 1, 1, 1⟩ = 200 := by
  refine ⟨by constructor <;> norm_num, ?_, ?_⟩ <;> norm_num [SSDisk.R_in_tilde, SSDisk.R_out_tilde, SSDisk.R_g]

end Verif.Targets
