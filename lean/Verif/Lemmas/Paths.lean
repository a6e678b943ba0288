import Mathlib.Analysis.Complex.ExponentialBounds
import Verif.Model.Absorption
import Verif.Lemmas.Radiation
import Verif.Props.Geometry

/- Angles along the photon path and the grids of the opacity integrals. -/

namespace Verif.Absorption

open MathUtils Geometry

/-! ### angles -/

theorem div_sqrt_mem {a x2 : ℝ} (h : a ^ 2 ≤ x2) : a / √x2 ∈ Set.Icc (-1) 1 := by
  have h1 : |a| ≤ √x2 := Real.abs_le_sqrt h
  rcases eq_or_lt_of_le (Real.sqrt_nonneg x2) with h0 | h0
  · rw [← h0]; simp
  · rw [abs_le] at h1
    constructor
    · rw [le_div_iff₀ h0]; linarith
    · rw [div_le_one h0]; linarith

theorem sq_le_one_of_mem {m : ℝ} (h : m ∈ Set.Icc (-1 : ℝ) 1) : 0 ≤ 1 - m * m := by
  nlinarith [h.1, h.2]

theorem ps_angle {r u m : ℝ} (h : m ∈ Set.Icc (-1 : ℝ) 1) :
    (r + u * m) / √(r * r + u * u + 2 * u * r * m) ∈ Set.Icc (-1) 1 := by
  apply div_sqrt_mem
  have := mul_nonneg (mul_self_nonneg u) (sq_le_one_of_mem h)
  nlinarith

theorem ring_angle {R l : ℝ} : l / xReRing R l ∈ Set.Icc (-1) 1 := by
  apply div_sqrt_mem
  nlinarith [sq_nonneg R]

theorem ring_angle_mu_s {R r phi u m : ℝ} (h : m ∈ Set.Icc (-1 : ℝ) 1) :
    (phiMuReRing R r phi u m).2 ∈ Set.Icc (-1) 1 := by
  unfold phiMuReRing xReRingMuS
  apply div_sqrt_mem
  have hs := Real.sq_sqrt (sq_le_one_of_mem h)
  generalize √(1 - m * m) = s at hs ⊢
  have hc := Real.sin_sq_add_cos_sq phi
  have e : u * u + R * R + r * r - 2 * u * R * s * Real.cos phi + 2 * r * u * m - (r + u * m) ^ 2
      = u ^ 2 * (1 - m * m) + R ^ 2 * 1 - 2 * u * R * s * Real.cos phi := by ring
  have e2 : u ^ 2 * (1 - m * m) + R ^ 2 * 1 - 2 * u * R * s * Real.cos phi
      = (u * s - R * Real.cos phi) ^ 2 + (R * Real.sin phi) ^ 2 := by
    rw [← hs, ← hc]; ring
  nlinarith [sq_nonneg (u * s - R * Real.cos phi), sq_nonneg (R * Real.sin phi)]

theorem shell_angle_mu_s {R r phi mu u m : ℝ} (h : m ∈ Set.Icc (-1 : ℝ) 1) (hm : mu ∈ Set.Icc (-1 : ℝ) 1) :
    (phiMuReShell R r phi mu u m).2 ∈ Set.Icc (-1) 1 := by
  unfold phiMuReShell xReShellMuS
  apply div_sqrt_mem
  have hs := Real.sq_sqrt (sq_le_one_of_mem h)
  have ht := Real.sq_sqrt (sq_le_one_of_mem hm)
  generalize √(1 - m * m) = s at hs ⊢
  generalize √(1 - mu * mu) = t at ht ⊢
  have hc := Real.sin_sq_add_cos_sq phi
  have e : R * R + u * u + r * r - 2 * R * u * t * Real.cos phi * s - 2 * R * mu * (r + u * m) + 2 * r * u * m
        - (r + u * m - R * mu) ^ 2
      = u ^ 2 * (1 - m * m) + R ^ 2 * (1 - mu * mu) * 1 - 2 * u * R * s * t * Real.cos phi := by ring
  have e2 : u ^ 2 * (1 - m * m) + R ^ 2 * (1 - mu * mu) * 1 - 2 * u * R * s * t * Real.cos phi
      = (u * s - R * t * Real.cos phi) ^ 2 + (R * t * Real.sin phi) ^ 2 := by
    rw [← hs, ← ht, ← hc]; ring
  nlinarith [sq_nonneg (u * s - R * t * Real.cos phi), sq_nonneg (R * t * Real.sin phi)]

theorem disk_angle (q : ℝ) (hq : 0 ≤ q) : (1 + q) ^ (-1 / 2 : ℝ) ∈ Set.Icc (-1 : ℝ) 1 := by
  have h0 : 0 < (1 + q) ^ (-1 / 2 : ℝ) := by positivity
  refine ⟨by linarith, ?_⟩
  apply Real.rpow_le_one_of_one_le_of_nonpos <;> linarith

/-! ### paths -/

theorem path_pos {a b r : ℝ} {n : ℕ} (hr : 0 < r) : ∀ x ∈ (logspace a b n).map (· * r), 0 < x := by
  intro x hx
  obtain ⟨y, hy, rfl⟩ := List.mem_map.1 hx
  exact mul_pos (logspace_pos y hy) hr

theorem path_chain {a b r : ℝ} {n : ℕ} (h : a < b) (hn : 2 ≤ n) (hr : 0 ≤ r) :
    ((logspace a b n).map (· * r)).IsChain (· ≤ ·) := map_mul_chain (logspace_chain h hn) hr

theorem two_lt_log_ten : 2 < Real.log 10 := by
  have h := Real.log_two_gt_d9
  have e : Real.log 8 = 3 * Real.log 2 := by
    rw [show (8 : ℝ) = 2 ^ 3 by norm_num, Real.log_pow]; norm_num
  have : Real.log 8 < Real.log 10 := Real.log_lt_log (by norm_num) (by norm_num)
  linarith

theorem ten_pow_ge {x : ℝ} (h : 0 ≤ x) : 1 + 2 * x ≤ (10 : ℝ) ^ x := by
  rw [Real.rpow_def_of_pos (by norm_num)]
  have h1 := Real.add_one_le_exp (Real.log 10 * x)
  have h2 := two_lt_log_ten
  nlinarith

/-- successive points of the path of `evaluate_tau_blr` differ at least by the factor `1 + 10/(n-1)` -/
theorem path_ratio {n : ℕ} (hn : 2 ≤ n) {r : ℝ} (hr : 0 < r) :
    ((logspace 0 5 n).map (· * r)).IsChain fun x y => x * (1 + 10 / ((n : ℝ) - 1)) ≤ y := by
  have hn' : (0 : ℝ) < n - 1 := by
    have : (2 : ℝ) ≤ n := by exact_mod_cast hn
    linarith
  unfold logspace linspace
  rw [List.map_map, List.map_map]
  rw [List.isChain_iff_getElem]
  intro i hi
  simp only [List.getElem_map, List.getElem_range, Function.comp_apply]
  have e : (0 : ℝ) + ((i + 1 : ℕ) : ℝ) * ((5 - 0) / ((n : ℝ) - 1))
      = (0 + (i : ℝ) * ((5 - 0) / ((n : ℝ) - 1))) + 5 / ((n : ℝ) - 1) := by push_cast; ring
  rw [e]
  generalize 0 + (i : ℝ) * ((5 - 0) / ((n : ℝ) - 1)) = A
  rw [Real.rpow_add (by norm_num : (0 : ℝ) < 10)]
  have h1 := ten_pow_ge (x := 5 / ((n : ℝ) - 1)) (by positivity)
  have h2 : 0 < (10 : ℝ) ^ A * r := by positivity
  have h3 : 1 + 10 / ((n : ℝ) - 1) = 1 + 2 * (5 / ((n : ℝ) - 1)) := by ring
  rw [h3]
  have := mul_le_mul_of_nonneg_left h1 h2.le
  linarith

/-- the guard of the shell keeps the path of `evaluate_tau_blr` increasing, for shells larger than 1 cm and up to 50000
points -/
theorem guardPath_chain {n : ℕ} (hn : 2 ≤ n) (hn' : n ≤ 50000) {r R : ℝ} (hr : 0 < r) (hR : 1 ≤ R) :
    (guardPath ((logspace 0 5 n).map (· * r)) R).IsChain (· < ·) := by
  unfold guardPath
  rw [List.isChain_map]
  have h := path_ratio hn hr
  have hp := path_pos (a := 0) (b := 5) (n := n) hr
  generalize (logspace 0 5 n).map (· * r) = l at h hp
  have h1 : (0 : ℝ) < n - 1 := by
    have : (2 : ℝ) ≤ n := by exact_mod_cast hn
    linarith
  have hq : (2 : ℝ) / 10000 ≤ 10 / ((n : ℝ) - 1) := by
    rw [div_le_div_iff₀ (by norm_num) h1]
    have : (n : ℝ) ≤ 50000 := by exact_mod_cast hn'
    linarith
  rw [List.isChain_iff_getElem] at h ⊢
  intro i hi
  have h2 := h i hi
  have hpos := hp _ (List.getElem_mem (by omega : i < l.length))
  generalize l[i] = x at h2 hpos ⊢
  generalize l[i + 1] = y at h2 ⊢
  have hxy : x * (1 + 2 / 10000) ≤ y := le_trans (mul_le_mul_of_nonneg_left (by linarith) hpos.le) h2
  unfold closeTo minRelDistance
  rw [abs_of_pos (by linarith : 0 < R)]
  split_ifs with c1 c2 c2
  · nlinarith
  · rw [abs_le] at c1
    nlinarith [c1.1]
  · nlinarith
  · nlinarith

theorem guardPath_pos {l : List ℝ} (h : ∀ x ∈ l, 0 < x) {R : ℝ} (hR : 0 ≤ R) : ∀ x ∈ guardPath l R, 0 < x := by
  intro x hx
  obtain ⟨y, hy, rfl⟩ := List.mem_map.1 hx
  have := h y hy
  have h2 : 0 ≤ minRelDistance * R := by unfold minRelDistance; positivity
  split_ifs
  · linarith
  · exact this

theorem guardPathMuS_chain {uu : List ℝ} (h : uu.IsChain (· ≤ ·)) (R r m : ℝ) :
    (guardPathMuS uu R r m).IsChain (· ≤ ·) := by
  unfold guardPathMuS
  split_ifs
  · rw [List.isChain_iff_pairwise]
    exact List.pairwise_insertionSort _ _
  · exact h

end Verif.Absorption
