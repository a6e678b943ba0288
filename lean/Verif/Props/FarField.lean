import Verif.Props.Quadrature
import Verif.Props.Targets
import Verif.Props.Continuity
import Verif.Props.Disk
import Verif.Props.Limits

/- C99: far away every target is a point source behind the jet. -/

noncomputable section

namespace Verif

open MathUtils Filter Topology

theorem tendsto_trapz {T ι : Type*} {l : Filter T} (is : List ι) {x y : ι → T → ℝ} {x₀ y₀ : ι → ℝ}
    (hx : ∀ i ∈ is, Tendsto (x i) l (𝓝 (x₀ i))) (hy : ∀ i ∈ is, Tendsto (y i) l (𝓝 (y₀ i))) :
    Tendsto (fun t => trapz (is.map fun i => y i t) (is.map fun i => x i t)) l (𝓝 (trapz (is.map y₀) (is.map x₀))) := by
  induction is with
  | nil => exact tendsto_const_nhds
  | cons i is ih =>
    have ih := ih (fun j hj => hx j (List.mem_cons_of_mem _ hj)) (fun j hj => hy j (List.mem_cons_of_mem _ hj))
    cases is with
    | nil => exact tendsto_const_nhds
    | cons j js =>
      have xi := hx i List.mem_cons_self
      have yi := hy i List.mem_cons_self
      have xj := hx j (List.mem_cons_of_mem _ List.mem_cons_self)
      have yj := hy j (List.mem_cons_of_mem _ List.mem_cons_self)
      exact (((xj.sub xi).mul (yi.add yj)).div_const 2).add ih

/-- the integral of a constant over a grid -/
theorem over_const (c : ℝ) : ∀ (x : ℝ) (xs : List ℝ),
    Verif.over trapz (x :: xs) (fun _ => c) = c * ((x :: xs).getLast (by simp) - x)
  | x, [] => by simp [Verif.over, trapz]
  | x, y :: xs => by
    have ih := over_const c y xs
    have e : Verif.over trapz (x :: y :: xs) (fun _ => c) = (y - x) * (c + c) / 2 + Verif.over trapz (y :: xs) (fun _ => c) := by
      simp [Verif.over, trapz]
    rw [e, ih, List.getLast_cons (List.cons_ne_nil y xs)]
    ring

/-- the integral of a constant over an equally spaced grid -/
theorem over_linspace {a b : ℝ} {n : ℕ} (hn : 2 ≤ n) (c : ℝ) :
    Verif.over trapz (linspace a b n) (fun _ => c) = c * (b - a) := by
  obtain ⟨h1, h2⟩ := Compton.linspace_ends (a := a) (b := b) hn
  generalize linspace a b n = xs at *
  rcases xs with _ | ⟨x, xs⟩
  · simp at h1
  · rw [over_const]
    have e1 : x = a := by simpa using h1
    have e2 : (x :: xs).getLast (by simp) = b := by
      rw [List.getLast?_eq_some_getLast (by simp)] at h2
      exact Option.some.inj h2
    rw [e1] at *
    rw [e2]

theorem tendsto_const_div_sq (c : ℝ) : Tendsto (fun r : ℝ => c / r ^ 2) atTop (𝓝 0) :=
  tendsto_const_nhds.div_atTop (tendsto_pow_atTop (by norm_num))

theorem tendsto_const_div (c : ℝ) : Tendsto (fun r : ℝ => c / r) atTop (𝓝 0) :=
  tendsto_const_nhds.div_atTop tendsto_id

end Verif

namespace Verif.Targets

open MathUtils Geometry Region Filter Topology Set

/-- far away the energy density is that of a point source of luminosity `L` behind the jet, at rest and in the frame of
every blob -/
def FarLike (k : Consts) (u : ℝ → Option Blob → ℝ) (L : ℝ) : Prop :=
  Tendsto (fun r => r ^ 2 * u r none) atTop (𝓝 (L / (4 * Real.pi * k.c)))
    ∧ ∀ b : Blob, 1 ≤ b.Gamma → Tendsto (fun r => r ^ 2 * u r (some b)) atTop
      (𝓝 (L / (4 * Real.pi * k.c) / (b.Gamma ^ 2 * (1 + b.Beta) ^ 2)))

theorem weight_one {b : Blob} (h : 1 ≤ b.Gamma) : weight b 1 = 1 / (b.Gamma ^ 2 * (1 + b.Beta) ^ 2) := by
  have h1 := C48_ps ⟨1, 1, 1, 1, 1, 1, 1, 1, 1, 1⟩ ⟨4 * Real.pi, 1⟩ 1 h
  have hp := Real.pi_ne_zero
  unfold PS.u at h1
  simp only [one_pow, mul_one, div_self (mul_ne_zero four_ne_zero hp)] at h1
  exact h1.symm

/-- the reference: the point source itself -/
theorem PS.far (k : Consts) (t : PS) {r : ℝ} (hr : 0 < r) :
    r ^ 2 * t.u k r none = t.L_0 / (4 * Real.pi * k.c)
    ∧ ∀ b : Blob, r ^ 2 * t.u k r (some b) = t.L_0 / (4 * Real.pi * k.c) / (b.Gamma ^ 2 * (1 + b.Beta) ^ 2) := by
  have e : r ^ 2 * (t.L_0 / (4 * Real.pi * k.c * r ^ 2)) = t.L_0 / (4 * Real.pi * k.c) := by
    rw [mul_comm, div_mul_eq_mul_div, mul_div_mul_right _ _ (by positivity)]
  refine ⟨e, fun b => ?_⟩
  unfold PS.u
  dsimp only
  rw [mul_div_assoc', e]

theorem tendsto_ring_angle (R : ℝ) : Tendsto (fun r : ℝ => r / √(R ^ 2 + r ^ 2)) atTop (𝓝 1) := by
  have h : Tendsto (fun r : ℝ => 1 / √(R ^ 2 / r ^ 2 + 1)) atTop (𝓝 (1 / √(0 + 1))) :=
    tendsto_const_nhds.div (((tendsto_const_div_sq (R ^ 2)).add_const 1).sqrt) (by norm_num)
  rw [zero_add, Real.sqrt_one, div_one] at h
  refine h.congr' ?_
  filter_upwards [eventually_gt_atTop 0] with r hr
  have e : R ^ 2 + r ^ 2 = r ^ 2 * (R ^ 2 / r ^ 2 + 1) := by field_simp
  have h1 : 0 < √(R ^ 2 / r ^ 2 + 1) := Real.sqrt_pos.2 (by positivity)
  rw [e, Real.sqrt_mul (by positivity), Real.sqrt_sq hr.le]
  field_simp

theorem tendsto_dilution (R : ℝ) : Tendsto (fun r : ℝ => r ^ 2 / (R ^ 2 + r ^ 2)) atTop (𝓝 1) := by
  have h : Tendsto (fun r : ℝ => 1 / (R ^ 2 / r ^ 2 + 1)) atTop (𝓝 (1 / (0 + 1))) :=
    tendsto_const_nhds.div ((tendsto_const_div_sq (R ^ 2)).add_const 1) (by norm_num)
  rw [zero_add, div_one] at h
  refine h.congr' ?_
  filter_upwards [eventually_gt_atTop 0] with r hr
  have : R ^ 2 / r ^ 2 + 1 ≠ 0 := by positivity
  field_simp

/-- C99: the torus -/
theorem C99_dt (k : Consts) (t : DT) : FarLike k (t.u k) (t.xi_dt * t.L_disk) := by
  have h0 := (tendsto_dilution t.R_dt).const_mul (t.xi_dt * t.L_disk / (4 * Real.pi * k.c))
  rw [mul_one] at h0
  have e : ∀ r : ℝ, t.xi_dt * t.L_disk / (4 * Real.pi * k.c) * (r ^ 2 / (t.R_dt ^ 2 + r ^ 2))
      = r ^ 2 * (t.xi_dt * t.L_disk / (4 * Real.pi * k.c * (t.R_dt ^ 2 + r ^ 2))) := fun r => by
    rw [div_mul_div_comm, mul_comm _ (r ^ 2), mul_div_assoc]
  refine ⟨h0.congr e, fun b hb => ?_⟩
  have h1 : Tendsto (fun r : ℝ => (b.Gamma * (1 - b.Beta * (r / √(t.R_dt ^ 2 + r ^ 2)))) ^ 2) atTop (𝓝 (weight b 1)) := by
    have := ((((tendsto_ring_angle t.R_dt).const_mul b.Beta).const_sub 1).const_mul b.Gamma).pow 2
    rwa [mul_pow] at this
  have h2 := h0.mul h1
  rw [weight_one hb, mul_one_div] at h2
  refine h2.congr fun r => ?_
  rw [e, mul_assoc]
  rfl

/-- C99: at the centre of the torus -/
theorem C99_dt_centre (k : Consts) (t : DT) : t.u k 0 none = t.xi_dt * t.L_disk / (4 * Real.pi * k.c * t.R_dt ^ 2) := by
  unfold DT.u
  simp

/-- C99: the energy density of the torus falls along the jet -/
theorem C99_dt_falls {k : Consts} (hk : k.Pos) {t : DT} (hL : 0 < t.xi_dt * t.L_disk) (hR : 0 < t.R_dt) {r r' : ℝ}
    (hr : 0 ≤ r) (h : r < r') : t.u k r' none < t.u k r none := by
  have hc := hk.c
  unfold DT.u
  dsimp only
  apply div_lt_div_of_pos_left hL (by positivity)
  apply mul_lt_mul_of_pos_left _ (by positivity)
  have := pow_lt_pow_left₀ h hr two_ne_zero
  linarith

theorem over_mu_grid (c : ℝ) : Verif.over trapz (linspace (-1) 1 50) (fun _ => c) = 2 * c := by
  obtain ⟨mid, hmid⟩ := BLR.mu_grid
  rw [hmid, over_const]
  simp
  ring

theorem tendsto_shell_dilution (R mu : ℝ) :
    Tendsto (fun r : ℝ => r ^ 2 * (1 / (r ^ 2 + R ^ 2 - 2 * r * R * mu))) atTop (𝓝 1) := by
  have h : Tendsto (fun r : ℝ => 1 / (1 + R ^ 2 / r ^ 2 - 2 * R * mu / r)) atTop (𝓝 (1 / (1 + 0 - 0))) :=
    tendsto_const_nhds.div (((tendsto_const_div_sq (R ^ 2)).const_add 1).sub (tendsto_const_div (2 * R * mu))) (by norm_num)
  rw [add_zero, sub_zero, div_one] at h
  refine h.congr' ?_
  filter_upwards [eventually_gt_atTop 0] with r hr
  have e : r ^ 2 + R ^ 2 - 2 * r * R * mu = r ^ 2 * (1 + R ^ 2 / r ^ 2 - 2 * R * mu / r) := by
    field_simp
  rw [e, one_div, one_div, mul_inv, ← mul_assoc, mul_inv_cancel₀ (by positivity), one_mul]

theorem tendsto_shell_angle (R mu : ℝ) :
    Tendsto (fun r : ℝ => √(1 - R ^ 2 / (r ^ 2 + R ^ 2 - 2 * r * R * mu) * (1 - mu ^ 2))) atTop (𝓝 1) := by
  have h := (tendsto_const_div_sq (R ^ 2)).mul (tendsto_shell_dilution R mu)
  rw [zero_mul] at h
  have h2 := (((h.mul_const (1 - mu ^ 2)).const_sub 1).sqrt)
  rw [zero_mul, sub_zero, Real.sqrt_one] at h2
  refine h2.congr' ?_
  filter_upwards [eventually_gt_atTop 0] with r hr
  congr 3
  rw [← mul_assoc, div_mul_cancel₀ _ (by positivity), mul_one_div]

/-- C99: the broad line region -/
theorem C99_blr (k : Consts) (t : BLR) : FarLike k (t.u k) (t.xi_line * t.L_disk) := by
  have key : ∀ (w : ℝ → ℝ → ℝ) (c : ℝ), (∀ mu, Tendsto (w mu) atTop (𝓝 c)) →
      Tendsto (fun r => r ^ 2 * (t.xi_line * t.L_disk / (8 * Real.pi * k.c) * Verif.over trapz (linspace (-1) 1 50) fun mu =>
        1 / (r ^ 2 + t.R_line ^ 2 - 2 * r * t.R_line * mu) * w mu r)) atTop
        (𝓝 (t.xi_line * t.L_disk / (4 * Real.pi * k.c) * c)) := by
    intro w c hw
    have h := tendsto_trapz (linspace (-1) 1 50) (x := fun mu _ => mu) (x₀ := fun mu => mu)
      (y := fun mu r => r ^ 2 * (1 / (r ^ 2 + t.R_line ^ 2 - 2 * r * t.R_line * mu)) * w mu r) (y₀ := fun _ => 1 * c)
      (fun mu _ => tendsto_const_nhds) (fun mu _ => (tendsto_shell_dilution t.R_line mu).mul (hw mu))
    have h2 := h.const_mul (t.xi_line * t.L_disk / (8 * Real.pi * k.c))
    have e0 : trapz ((linspace (-1) 1 50).map fun _ => 1 * c) ((linspace (-1) 1 50).map fun mu => mu) = 2 * c := by
      rw [List.map_id', one_mul]
      exact over_mu_grid c
    rw [e0, show t.xi_line * t.L_disk / (8 * Real.pi * k.c) * (2 * c) = t.xi_line * t.L_disk / (4 * Real.pi * k.c) * c by
      rw [show (8 : ℝ) * Real.pi * k.c = 2 * (4 * Real.pi * k.c) by ring, div_mul_eq_mul_div, div_mul_eq_mul_div, mul_comm 2 c,
        ← mul_assoc, mul_comm (_ * c) 2, mul_div_mul_left _ _ two_ne_zero]] at h2
    refine h2.congr fun r => ?_
    rw [mul_left_comm]
    congr 1
    rw [List.map_id']
    have e1 := over_scale homogeneous_trapz (linspace (-1) 1 50)
      (fun mu => 1 / (r ^ 2 + t.R_line ^ 2 - 2 * r * t.R_line * mu) * w mu r) (r ^ 2)
    rw [← e1]
    simp only [Verif.over, mul_assoc]
  refine ⟨?_, fun b hb => ?_⟩
  · have h := key (fun _ _ => 1) 1 fun _ => tendsto_const_nhds
    rw [mul_one] at h
    refine h.congr fun r => ?_
    simp only [mul_one]
    rfl
  · have h := key (fun mu r => b.Gamma ^ 2
      * (1 - b.Beta * √(1 - t.R_line ^ 2 / (r ^ 2 + t.R_line ^ 2 - 2 * r * t.R_line * mu) * (1 - mu ^ 2))) ^ 2) (weight b 1)
      fun mu => ((((tendsto_shell_angle t.R_line mu).const_mul b.Beta).const_sub 1).pow 2).const_mul _
    rw [weight_one hb, mul_one_div] at h
    exact h

/-- C99: at the centre of the shell -/
theorem C99_blr_centre (k : Consts) (t : BLR) :
    t.u k 0 none = t.xi_line * t.L_disk / (4 * Real.pi * k.c * t.R_line ^ 2) := by
  have h := over_mu_grid (1 / t.R_line ^ 2)
  unfold BLR.u
  simp only [ne_eq, OfNat.ofNat_ne_zero, not_false_eq_true, zero_pow, zero_add, mul_zero, zero_mul, sub_zero]
  rw [h, show (4 : ℝ) * Real.pi * k.c * t.R_line ^ 2 = 1 / 2 * (8 * Real.pi * k.c) * t.R_line ^ 2 by ring]
  by_cases hR : t.R_line = 0
  · simp [hR]
  by_cases hc : k.c = 0
  · simp [hc]
  have := Real.pi_ne_zero
  field_simp

end Verif.Targets

namespace Verif.Compton

open MathUtils Geometry Kernels Spectra Targets Region Filter Topology Set

/-- no Lorentz factor of the grid lies exactly at the threshold of the scattering of photons that come from behind -/
def OffThreshold (εs ε mu_s : ℝ) (gamma : List ℝ) : Prop :=
  ∀ g ∈ gamma, 0 < g ∧ εs * (1 + 2 * (g * ε * (1 - mu_s))) ≠ 2 * g * (g * ε * (1 - mu_s))

theorem cosPsi_behind (mu_s phi : ℝ) : cosPsi mu_s 1 phi = mu_s := by
  unfold cosPsi
  simp

/-- the kernel for photons whose direction tends to that of the jet -/
theorem tendsto_kernel {T : Type*} {l : Filter T} {m : T → ℝ} (hm : Tendsto m l (𝓝 1)) (hr : ∀ᶠ t in l, m t ∈ Icc (-1) 1)
    {g εs ε mu_s : ℝ} (hg : 0 < g) (hs : 0 < εs) (he : 0 < ε) (hmu : mu_s ∈ Icc (-1) 1) (phi : ℝ)
    (hne : εs * (1 + 2 * (g * ε * (1 - mu_s))) ≠ 2 * g * (g * ε * (1 - mu_s))) :
    Tendsto (fun t => comptonKernel g εs ε mu_s (m t) phi) l (𝓝 (comptonKernel g εs ε mu_s 1 0)) := by
  have hc : Tendsto (fun t => cosPsi mu_s (m t) phi) l (𝓝 mu_s) := by
    have h : ContinuousAt (fun mu => cosPsi mu_s mu phi) 1 := by
      unfold cosPsi
      dsimp only
      fun_prop
    have := h.tendsto.comp hm
    rwa [cosPsi_behind] at this
  have hle : ∀ᶠ t in l, cosPsi mu_s (m t) phi ≤ 1 := hr.mono fun t ht => (C38_range hmu ht phi).2
  have h0 : cosPsi mu_s 1 0 = mu_s := cosPsi_behind mu_s 0
  have hl : Tendsto (fun t => εs * (1 + 2 * (g * ε * (1 - cosPsi mu_s (m t) phi)))) l
      (𝓝 (εs * (1 + 2 * (g * ε * (1 - mu_s))))) := ((((hc.const_sub 1).const_mul _).const_mul 2).const_add 1).const_mul _
  have hu : Tendsto (fun t => 2 * g * (g * ε * (1 - cosPsi mu_s (m t) phi))) l
      (𝓝 (2 * g * (g * ε * (1 - mu_s)))) := ((hc.const_sub 1).const_mul _).const_mul _
  rcases lt_or_gt_of_ne hne with h | h
  · have h1 : mu_s < 1 := by
      refine lt_of_le_of_ne hmu.2 fun h1 => ?_
      rw [h1] at h
      simp at h
      linarith
    have ha := hl.eventually_lt hu h
    have hb : ∀ᶠ t in l, cosPsi mu_s (m t) phi < 1 := hc.eventually_lt_const h1
    have hA : Allowed g εs ε mu_s := h.le
    have hlt := allowed_lt hg hs he h1 hA
    have hy : 0 < 1 - εs / g := by rw [sub_pos, div_lt_one hg]; exact hlt
    have e0 : comptonKernel g εs ε mu_s 1 0 = (1 - εs / g) + 1 / (1 - εs / g)
        + -(2 * εs) / (g * (g * ε * (1 - mu_s)) * (1 - εs / g)) + εs ^ 2 / (g * (g * ε * (1 - mu_s)) * (1 - εs / g)) ^ 2 := by
      unfold comptonKernel
      dsimp only
      rw [if_pos ((C39_threshold hg hs he (by rw [h0]; exact h1)).2 (by rw [h0]; exact hA)), h0]
    have hD : g * (g * ε * (1 - mu_s)) * (1 - εs / g) ≠ 0 := by
      have : 0 < 1 - mu_s := by linarith
      positivity
    have hden : Tendsto (fun t => g * (g * ε * (1 - cosPsi mu_s (m t) phi)) * (1 - εs / g)) l
        (𝓝 (g * (g * ε * (1 - mu_s)) * (1 - εs / g))) := (((hc.const_sub 1).const_mul _).const_mul _).mul_const _
    rw [e0]
    refine (((tendsto_const_nhds (x := (1 - εs / g) + 1 / (1 - εs / g))).add
      ((tendsto_const_nhds (x := -(2 * εs))).div hden hD)).add
      ((tendsto_const_nhds (x := εs ^ 2)).div (hden.pow 2) (pow_ne_zero 2 hD))).congr' ?_
    filter_upwards [ha, hb] with t hat hbt
    unfold comptonKernel
    dsimp only
    rw [if_pos ((C39_threshold hg hs he hbt).2 hat.le)]
    rfl
  · have ha := hu.eventually_lt hl h
    have e0 : comptonKernel g εs ε mu_s 1 0 = 0 :=
      C39_zero hg hs he (by rw [h0]; exact hmu.2) (.inr (by rw [h0]; exact not_le.2 h))
    rw [e0]
    refine tendsto_const_nhds.congr' ?_
    filter_upwards [ha, hle] with t hat hlet
    exact (C39_zero hg hs he hlet (.inr (not_le.2 hat))).symm

theorem tendsto_zip {T : Type*} {l : Filter T} {F : ℝ → ℝ → T → ℝ} {F₀ : ℝ → ℝ → ℝ} : ∀ (gamma N : List ℝ),
    (∀ n, ∀ g ∈ gamma, Tendsto (F n g) l (𝓝 (F₀ n g))) →
    Tendsto (fun t => trapz (List.zipWith (fun n g => F n g t) N gamma) gamma) l (𝓝 (trapz (List.zipWith F₀ N gamma) gamma))
  | [], N, _ => by simpa [trapz] using tendsto_const_nhds
  | [g], N, _ => by rcases N with _ | ⟨n, N⟩ <;> simpa [trapz] using tendsto_const_nhds
  | g :: g' :: gamma, N, h => by
    rcases N with _ | ⟨n, N⟩
    · simpa [trapz] using tendsto_const_nhds
    have ih := tendsto_zip (g' :: gamma) N fun n x hx => h n x (List.mem_cons_of_mem _ hx)
    rcases N with _ | ⟨n', N⟩
    · simpa [trapz] using tendsto_const_nhds
    exact ((((h n g (by simp)).add (h n' g' (by simp))).const_mul (g' - g)).div_const 2).add ih

/-- the integral over the Lorentz factors of photons whose direction tends to that of the jet -/
theorem tendsto_fold {T : Type*} {l : Filter T} {m : T → ℝ} (hm : Tendsto m l (𝓝 1)) (hr : ∀ᶠ t in l, m t ∈ Icc (-1) 1)
    {εs ε mu_s : ℝ} (hs : 0 < εs) (he : 0 < ε) (hmu : mu_s ∈ Icc (-1) 1) (phi : ℝ) {N gamma : List ℝ}
    (hg : OffThreshold εs ε mu_s gamma) {w : T → ℝ} (hw : Tendsto w l (𝓝 1)) :
    Tendsto (fun t => fold trapz N gamma fun n g => w t * n / g ^ 2 * comptonKernel g εs ε mu_s (m t) phi) l
      (𝓝 (fold trapz N gamma fun n g => n / g ^ 2 * comptonKernel g εs ε mu_s 1 0)) := by
  refine tendsto_zip (F := fun n g t => w t * n / g ^ 2 * comptonKernel g εs ε mu_s (m t) phi) gamma N fun n g hgm => ?_
  have h := ((hw.mul_const n).div_const (g ^ 2)).mul (tendsto_kernel hm hr (hg g hgm).1 hs he hmu phi (hg g hgm).2)
  rwa [one_mul] at h

theorem mul_fold (c : ℝ) (N gamma : List ℝ) (f : ℝ → ℝ → ℝ) :
    c * fold trapz N gamma f = fold trapz N gamma fun n g => c * f n g := by
  unfold fold
  rw [← homogeneous_trapz, List.map_zipWith]

/-- the prefactors agree -/
theorem prefactor_far (A d e I : ℝ) : A / (2 ^ 8 * Real.pi ^ 3 * d ^ 2 * e ^ 2) * (I * (2 * Real.pi - 0))
    = A / (2 ^ 7 * Real.pi ^ 2 * d ^ 2 * 1 ^ 2 * e ^ 2) * I := by
  have h : 2 * Real.pi ≠ 0 := by positivity
  rw [show (2 : ℝ) ^ 8 * Real.pi ^ 3 * d ^ 2 * e ^ 2 = 2 ^ 7 * Real.pi ^ 2 * d ^ 2 * 1 ^ 2 * e ^ 2 * (2 * Real.pi) by ring,
    ← div_div, sub_zero]
  field_simp

/-- C99: far away the inverse Compton scattering of the photons of the torus is that of a point source behind the jet -/
theorem C99_ec_dt {k : Consts} {nu z d_L delta_D mu_s R_b L_disk xi_dt ε R_dt : ℝ} {n_e : Dist} {gamma : List ℝ}
    (hs : 0 < nuToEps k nu z 1) (he : 0 < ε) (hmu : mu_s ∈ Icc (-1) 1) (hg : OffThreshold (nuToEps k nu z 1) ε mu_s gamma)
    {n : ℕ} (hn : 2 ≤ n) :
    Tendsto (fun r => r ^ 2 * dt k trapz nu z d_L delta_D mu_s R_b L_disk xi_dt ε R_dt r n_e gamma
        (linspace 0 (2 * Real.pi) n)) atTop
      (𝓝 (psBehindJet k trapz nu z d_L delta_D mu_s R_b ε (xi_dt * L_disk) 1 n_e gamma)) := by
  have hmu1 : ∀ᶠ r : ℝ in atTop, r / √(R_dt ^ 2 + r ^ 2) ∈ Icc (-1 : ℝ) 1 := by
    filter_upwards [eventually_gt_atTop 0] with r hr
    have h0 : 0 ≤ r / √(R_dt ^ 2 + r ^ 2) := by positivity
    refine ⟨by linarith, div_le_one_of_le₀ (Real.le_sqrt_of_sq_le ?_) (Real.sqrt_nonneg _)⟩
    nlinarith [sq_nonneg R_dt]
  have hI := tendsto_trapz (linspace 0 (2 * Real.pi) n) (x := fun phi _ => phi) (x₀ := fun phi => phi)
    (fun phi _ => tendsto_const_nhds (f := atTop))
    (fun phi _ => tendsto_fold (N := boostedN n_e R_b delta_D gamma) (tendsto_ring_angle R_dt) hmu1 hs he hmu phi hg
      tendsto_const_nhds)
  have h := ((tendsto_dilution R_dt).mul hI).const_mul
    (3 * k.sigma_T * xi_dt * L_disk * nuToEps k nu z 1 ^ 2 * delta_D ^ 3 / (2 ^ 8 * Real.pi ^ 3 * d_L ^ 2 * ε ^ 2))
  rw [List.map_id', one_mul] at h
  have e0 := over_linspace (a := 0) (b := 2 * Real.pi) hn
    (fold trapz (boostedN n_e R_b delta_D gamma) gamma fun n g => n / g ^ 2 * comptonKernel g (nuToEps k nu z 1) ε mu_s 1 0)
  unfold Verif.over at e0
  rw [e0, prefactor_far] at h
  have e1 : psBehindJet k trapz nu z d_L delta_D mu_s R_b ε (xi_dt * L_disk) 1 n_e gamma
      = 3 * k.sigma_T * xi_dt * L_disk * nuToEps k nu z 1 ^ 2 * delta_D ^ 3
        / (2 ^ 7 * Real.pi ^ 2 * d_L ^ 2 * 1 ^ 2 * ε ^ 2)
        * fold trapz (boostedN n_e R_b delta_D gamma) gamma fun n g =>
          n / g ^ 2 * comptonKernel g (nuToEps k nu z 1) ε mu_s 1 0 := by
    unfold psBehindJet
    dsimp only
    rw [← mul_assoc (3 * k.sigma_T)]
  rw [e1]
  refine h.congr fun r => ?_
  unfold dt xReRing
  dsimp only
  rw [Real.sq_sqrt (by positivity)]
  simp only [one_mul]
  unfold Verif.over
  rw [show (2 : ℝ) ^ 8 * Real.pi ^ 3 * d_L ^ 2 * (R_dt ^ 2 + r ^ 2) * ε ^ 2
    = 2 ^ 8 * Real.pi ^ 3 * d_L ^ 2 * ε ^ 2 * (R_dt ^ 2 + r ^ 2) by ring, ← div_div _ _ (R_dt ^ 2 + r ^ 2)]
  generalize trapz (List.map _ _) _ = S
  ring

/-- the cosine of the zenith of a point of the shell -/
theorem tendsto_mu_star {R mu : ℝ} (hm : mu ∈ Icc (-1 : ℝ) 1) :
    Tendsto (fun r => muStarShell mu R r) atTop (𝓝 1) ∧ ∀ᶠ r in atTop, muStarShell mu R r ∈ Icc (-1 : ℝ) 1 := by
  have h := (tendsto_shell_angle R mu)
  have e : ∀ᶠ r in atTop, √(1 - R ^ 2 / (r ^ 2 + R ^ 2 - 2 * r * R * mu) * (1 - mu ^ 2)) = muStarShell mu R r := by
    filter_upwards [eventually_gt_atTop (mu * R)] with r hr
    unfold muStarShell
    dsimp only
    rw [div_pow, shell_sq hm, if_pos hr]
    norm_num
  refine ⟨h.congr' e, e.mono fun r hr => ?_⟩
  rw [← hr]
  have h0 := Real.sqrt_nonneg (1 - R ^ 2 / (r ^ 2 + R ^ 2 - 2 * r * R * mu) * (1 - mu ^ 2))
  refine ⟨by linarith, ?_⟩
  have h1 : 0 ≤ r ^ 2 + R ^ 2 - 2 * r * R * mu := by rw [← shell_sq hm]; positivity
  have h2 : 0 ≤ 1 - mu ^ 2 := by nlinarith [hm.1, hm.2]
  have : 0 ≤ R ^ 2 / (r ^ 2 + R ^ 2 - 2 * r * R * mu) * (1 - mu ^ 2) := by positivity
  exact Real.sqrt_le_one.2 (by linarith)

/-- C99: the same for the broad line region -/
theorem C99_ec_blr {k : Consts} {nu z d_L delta_D mu_s R_b L_disk xi_line ε R_line : ℝ} {n_e : Dist}
    {gamma : List ℝ} (hs : 0 < nuToEps k nu z 1) (he : 0 < ε) (hmu : mu_s ∈ Icc (-1) 1)
    (hg : OffThreshold (nuToEps k nu z 1) ε mu_s gamma) {m n : ℕ} (hm : 2 ≤ m) (hn : 2 ≤ n) :
    Tendsto (fun r => r ^ 2 * blr k trapz nu z d_L delta_D mu_s R_b L_disk xi_line ε R_line r n_e gamma (linspace (-1) 1 m)
        (linspace 0 (2 * Real.pi) n)) atTop
      (𝓝 (psBehindJet k trapz nu z d_L delta_D mu_s R_b ε (xi_line * L_disk) 1 n_e gamma)) := by
  have hI := tendsto_trapz (linspace 0 (2 * Real.pi) n) (x := fun phi _ => phi) (x₀ := fun phi => phi)
    (fun phi _ => tendsto_const_nhds (f := atTop))
    (fun phi _ => tendsto_trapz (linspace (-1) 1 m) (x := fun mu _ => mu) (x₀ := fun mu => mu)
      (fun mu _ => tendsto_const_nhds (f := atTop))
      (fun mu hmem => by
        have hm1 := linspace_mem (by norm_num) hm hmem
        exact tendsto_fold (N := boostedN n_e R_b delta_D gamma) (tendsto_mu_star (R := R_line) hm1).1 (tendsto_mu_star hm1).2
          hs he hmu phi hg (tendsto_shell_dilution R_line mu)))
  have h := hI.const_mul
    (3 * k.sigma_T * xi_line * L_disk * nuToEps k nu z 1 ^ 2 * delta_D ^ 3 / (2 ^ 9 * Real.pi ^ 3 * d_L ^ 2 * ε ^ 2))
  simp only [List.map_id'] at h
  have e0 := over_linspace (a := -1) (b := 1) hm
    (fold trapz (boostedN n_e R_b delta_D gamma) gamma fun n g => n / g ^ 2 * comptonKernel g (nuToEps k nu z 1) ε mu_s 1 0)
  have e0' := over_linspace (a := 0) (b := 2 * Real.pi) hn
    (2 * fold trapz (boostedN n_e R_b delta_D gamma) gamma fun n g =>
      n / g ^ 2 * comptonKernel g (nuToEps k nu z 1) ε mu_s 1 0)
  unfold Verif.over at e0 e0'
  rw [e0, sub_neg_eq_add, one_add_one_eq_two, mul_comm _ (2 : ℝ), e0', mul_assoc 2 _ (2 * Real.pi - 0),
    show (2 : ℝ) ^ 9 * Real.pi ^ 3 * d_L ^ 2 * ε ^ 2 = 2 ^ 8 * Real.pi ^ 3 * d_L ^ 2 * ε ^ 2 * 2 by ring, ← mul_assoc,
    ← div_div _ _ (2 : ℝ), div_mul_cancel₀ _ (two_ne_zero), prefactor_far] at h
  have e1 : psBehindJet k trapz nu z d_L delta_D mu_s R_b ε (xi_line * L_disk) 1 n_e gamma
      = 3 * k.sigma_T * xi_line * L_disk * nuToEps k nu z 1 ^ 2 * delta_D ^ 3
        / (2 ^ 7 * Real.pi ^ 2 * d_L ^ 2 * 1 ^ 2 * ε ^ 2)
        * fold trapz (boostedN n_e R_b delta_D gamma) gamma fun n g =>
          n / g ^ 2 * comptonKernel g (nuToEps k nu z 1) ε mu_s 1 0 := by
    unfold psBehindJet
    dsimp only
    rw [← mul_assoc (3 * k.sigma_T)]
  rw [e1]
  refine h.congr fun r => ?_
  unfold blr
  dsimp only
  rw [mul_left_comm, show (2 : ℝ) ^ 9 * Real.pi ^ 3 * d_L ^ 2 * ε ^ 2 = 2 ^ 8 * Real.pi ^ 3 * d_L ^ 2 * ε ^ 2 * 2 by ring,
    ← div_div _ _ (2 : ℝ)]
  congr 1
  rw [← over_scale homogeneous_trapz]
  refine over_congr fun phi _ => ?_
  rw [← over_scale homogeneous_trapz]
  refine over_congr fun mu hmem => ?_
  rw [mul_fold]
  congr 1
  funext n g
  rw [shell_sq (linspace_mem (by norm_num) hm hmem)]
  ring

/-- the scattering of the photons of a point source falls with the square of the distance -/
theorem psBehindJet_dilution {k : Consts} {nu z d_L delta_D mu_s R_b ε L r : ℝ} {n_e : Dist} {gamma : List ℝ} (hr : 0 < r) :
    r ^ 2 * psBehindJet k trapz nu z d_L delta_D mu_s R_b ε L r n_e gamma
      = psBehindJet k trapz nu z d_L delta_D mu_s R_b ε L 1 n_e gamma := by
  unfold psBehindJet
  dsimp only
  rw [show (2 : ℝ) ^ 7 * Real.pi ^ 2 * d_L ^ 2 * r ^ 2 * ε ^ 2 = 2 ^ 7 * Real.pi ^ 2 * d_L ^ 2 * 1 ^ 2 * ε ^ 2 * r ^ 2 by ring,
    ← div_div, ← mul_assoc, mul_div_cancel₀ _ (by positivity)]

/-- C99 for the objects: the SED of `ExternalCompton` on the torus or the broad line region, as the blob moves away, is that
on a point source of the reprocessed luminosity -/
theorem C99_ec {k : Consts} {b : Blob} {nu : ℝ} (hs : 0 < nuToEps k nu b.z 1) (hmu : b.mu_s ∈ Icc (-1) 1) {L ε : ℝ}
    (he : 0 < ε) (hg : OffThreshold (nuToEps k nu b.z 1) ε b.mu_s b.gamma_e_external_frame) {target : Target}
    (ht : (∃ t : DT, target = .dt t ∧ L = t.xi_dt * t.L_disk ∧ ε = t.epsilon_dt k)
      ∨ ∃ t : BLR, target = .blr t ∧ L = t.xi_line * t.L_disk ∧ ε = t.epsilon_line) :
    ∃ (sed : ℝ → ℝ) (s : ℝ), (∀ r, (EC.new k b target r trapz).sedFlux k nu = some (sed r))
      ∧ (∀ r, 0 < r → (EC.new k b (.ps ⟨L, ε⟩) r trapz).sedFlux k nu = some (s / r ^ 2))
      ∧ Tendsto (fun r => r ^ 2 * sed r) atTop (𝓝 s) := by
  have hps : ∀ r, 0 < r → (EC.new k b (.ps ⟨L, ε⟩) r trapz).sedFlux k nu
      = some (psBehindJet k trapz nu b.z b.d_L b.delta_D b.mu_s b.R_b ε L 1 b.n_e b.gamma_e_external_frame / r ^ 2) := by
    intro r hr
    rw [← psBehindJet_dilution hr, mul_div_cancel_left₀ _ (by positivity)]
    rfl
  rcases ht with ⟨t, rfl, rfl, rfl⟩ | ⟨t, rfl, rfl, rfl⟩
  · have h := C99_ec_dt (d_L := b.d_L) (delta_D := b.delta_D) (R_b := b.R_b) (L_disk := t.L_disk) (xi_dt := t.xi_dt)
      (R_dt := t.R_dt) (n_e := b.n_e) hs he hmu hg (show 2 ≤ 50 by norm_num)
    refine ⟨fun r => dt k trapz nu b.z b.d_L b.delta_D b.mu_s b.R_b t.L_disk t.xi_dt (t.epsilon_dt k) t.R_dt r b.n_e
      b.gamma_e_external_frame (linspace 0 (2 * Real.pi) 50), _, fun r => ?_, hps, h⟩
    rfl
  · have h := C99_ec_blr (d_L := b.d_L) (delta_D := b.delta_D) (R_b := b.R_b) (L_disk := t.L_disk) (xi_line := t.xi_line)
      (R_line := t.R_line) (n_e := b.n_e) hs he hmu hg (show 2 ≤ 100 by norm_num) (show 2 ≤ 50 by norm_num)
    refine ⟨fun r => blr k trapz nu b.z b.d_L b.delta_D b.mu_s b.R_b t.L_disk t.xi_line t.epsilon_line t.R_line r b.n_e
      b.gamma_e_external_frame (linspace (-1) 1 100) (linspace 0 (2 * Real.pi) 50), _, fun r => ?_, hps, h⟩
    rfl

/-- a grid off the threshold: photons of energy 1 scattered to energy 1 at right angles by electrons of Lorentz factor 2 -/
example : OffThreshold 1 1 0 [2, 4] := by
  intro g hg
  rcases List.mem_cons.1 hg with rfl | hg
  · norm_num
  · rw [List.mem_singleton.1 hg]
    norm_num

end Verif.Compton
