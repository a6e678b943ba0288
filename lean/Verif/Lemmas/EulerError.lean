import Mathlib.Analysis.Calculus.MeanValue
import Mathlib.Analysis.SpecialFunctions.Exp
import Verif.Props.TEClosedForms

/- Error of the explicit Euler scheme of one bin against the solution of the kinetic equations. -/

namespace Verif.TE

open Set

/-- iterates of one bin -/
noncomputable def binSeq (F : ℝ → ℝ × ℝ → ℝ × ℝ) (dt T : ℝ) (p : ℝ × ℝ) : ℕ → ℝ × ℝ
  | 0 => p
  | k + 1 => F (stepLen dt T k) (binSeq F dt T p k)

theorem eulerRun_binSeq (F : ℝ → ℝ × ℝ → ℝ × ℝ) (dt T : ℝ) (P : List (ℝ × ℝ)) (k : ℕ) :
    eulerRun F dt T P k = P.map fun p => binSeq F dt T p k := by
  induction k with
  | zero => simp [eulerRun, binSeq]
  | succ k ih =>
    rw [eulerRun, ih, List.map_map]
    rfl

/-- accumulation of the errors of the single steps -/
theorem error_accumulates {E : ℕ → ℝ} {dt T L c η : ℝ} (hp : 0 < dt) (hT : 0 ≤ T) (hL : 0 ≤ L) (hc : 0 ≤ c)
    (h0 : E 0 ≤ 0) (hη : c * dt * T * Real.exp (L * T) ≤ η) (k : ℕ) (hk : ∀ i, i < k → (i : ℝ) * dt < T)
    (h : ∀ i, i < k → E i ≤ η → E (i + 1) ≤ (1 + L * stepLen dt T i) * E i + c * dt * stepLen dt T i) :
    E k ≤ c * dt * min (k * dt) T * Real.exp (L * min (k * dt) T) ∧ E k ≤ η := by
  have hmono : ∀ t, 0 ≤ t → t ≤ T → c * dt * t * Real.exp (L * t) ≤ η := by
    intro t ht htT
    refine le_trans ?_ hη
    have : Real.exp (L * t) ≤ Real.exp (L * T) := Real.exp_le_exp.2 (by gcongr)
    gcongr
  have hmin : ∀ k : ℕ, 0 ≤ min ((k : ℝ) * dt) T := fun k => le_min (by positivity) hT
  induction k with
  | zero =>
    have e : c * dt * min (((0 : ℕ) : ℝ) * dt) T * Real.exp (L * min (((0 : ℕ) : ℝ) * dt) T) = 0 := by
      simp [hT]
    refine ⟨by rw [e]; exact h0, h0.trans ?_⟩
    simpa using hmono 0 le_rfl hT
  | succ k ih =>
    obtain ⟨i1, i2⟩ := ih (fun i hi => hk i (by omega)) (fun i hi => h i (by omega))
    have hkT := hk k (by omega)
    have hs := stepLen_pos hp hkT
    have hstep := h k (by omega) i2
    rw [min_succ hkT]
    set t := min ((k : ℝ) * dt) T
    set s := stepLen dt T k
    have ht0 : 0 ≤ t := hmin k
    have hexp : (1 + L * s) * Real.exp (L * t) ≤ Real.exp (L * (t + s)) := by
      rw [mul_add, Real.exp_add, mul_comm (Real.exp (L * t))]
      have := Real.add_one_le_exp (L * s)
      have h1 : 1 + L * s ≤ Real.exp (L * s) := by linarith
      exact mul_le_mul_of_nonneg_right h1 (Real.exp_pos _).le
    have hone : 1 ≤ Real.exp (L * (t + s)) := Real.one_le_exp (by positivity)
    have hfin : E (k + 1) ≤ c * dt * (t + s) * Real.exp (L * (t + s)) := by
      calc E (k + 1) ≤ (1 + L * s) * E k + c * dt * s := hstep
        _ ≤ (1 + L * s) * (c * dt * t * Real.exp (L * t)) + c * dt * s := by gcongr
        _ = c * dt * t * ((1 + L * s) * Real.exp (L * t)) + c * dt * s * 1 := by ring
        _ ≤ c * dt * t * Real.exp (L * (t + s)) + c * dt * s * Real.exp (L * (t + s)) := by gcongr
        _ = _ := by ring
    refine ⟨hfin, hfin.trans (hmono _ (by positivity) ?_)⟩
    rw [← min_succ hkT]
    exact min_le_right _ _

/-- a function with bounded derivative is Lipschitz -/
theorem lip_of_deriv {g q : ℝ → ℝ} {T K : ℝ} (h : ∀ t ∈ Icc 0 T, HasDerivWithinAt g (q t) (Icc 0 T) t)
    (hb : ∀ t ∈ Icc 0 T, |q t| ≤ K) {t u : ℝ} (ht : t ∈ Icc 0 T) (hu : u ∈ Icc 0 T) : |g u - g t| ≤ K * |u - t| :=
  (convex_Icc 0 T).norm_image_sub_le_of_norm_hasDerivWithin_le h hb ht hu

/-- error of one Euler step along a solution -/
theorem euler_local {g q : ℝ → ℝ} {T Q : ℝ} (h : ∀ t ∈ Icc 0 T, HasDerivWithinAt g (q t) (Icc 0 T) t)
    (hq : ∀ t ∈ Icc 0 T, ∀ u ∈ Icc 0 T, |q u - q t| ≤ Q * |u - t|) (hQ : 0 ≤ Q) {t s : ℝ} (ht : 0 ≤ t) (hs : 0 ≤ s)
    (hts : t + s ≤ T) : |g (t + s) - g t - s * q t| ≤ Q * s ^ 2 := by
  have hsub : Icc t (t + s) ⊆ Icc 0 T := Icc_subset_Icc ht hts
  have ht' : t ∈ Icc 0 T := ⟨ht, by linarith⟩
  have h1 : ∀ u ∈ Icc t (t + s), HasDerivWithinAt (fun u => g u - u * q t) (q u - 1 * q t) (Icc t (t + s)) u := by
    intro u hu
    exact ((h u (hsub hu)).mono hsub).sub ((hasDerivWithinAt_id u _).mul_const _)
  have h2 : ∀ u ∈ Icc t (t + s), ‖q u - 1 * q t‖ ≤ Q * s := by
    intro u hu
    rw [one_mul]
    refine (hq t ht' u (hsub hu)).trans ?_
    refine mul_le_mul_of_nonneg_left ?_ hQ
    rw [abs_of_nonneg (by linarith [hu.1])]
    linarith [hu.2]
  have h3 := (convex_Icc t (t + s)).norm_image_sub_le_of_norm_hasDerivWithin_le h1 h2
    (left_mem_Icc.2 (by linarith)) (right_mem_Icc.2 (by linarith))
  rw [Real.norm_eq_abs, Real.norm_eq_abs] at h3
  have e1 : g (t + s) - (t + s) * q t - (g t - t * q t) = g (t + s) - g t - s * q t := by ring
  have e2 : |t + s - t| = s := by rw [add_sub_cancel_left, abs_of_nonneg hs]
  rw [e1, e2] at h3
  calc _ ≤ Q * s * s := h3
    _ = Q * s ^ 2 := by ring

/-- the relative change of the width of a bin per unit time and unit of mec2 -/
noncomputable def spread (en : ℝ → ℝ) (x : ℝ) : ℝ := (en (x * (1 + 1 / 10000)) - en x) / (x / 10000)

theorem eulerBin_spread {mec2 : ℝ} (hm : 0 < mec2) {en rel abs : ℝ → ℝ} {t : ℝ} {p : ℝ × ℝ} (hp : 0 < p.1) :
    p.1 / 10000 + (en (p.1 * (1 + 1 / 10000)) - en p.1) * t / mec2 = p.1 / 10000 * (1 + spread en p.1 / mec2 * t) ∧
    eulerBin mec2 en rel abs t p = (p.1 + en p.1 / mec2 * t,
      p.2 / (1 + spread en p.1 / mec2 * t) + (p.2 * rel p.1 + abs p.1) * t) := by
  have e : p.1 / 10000 + (en (p.1 * (1 + 1 / 10000)) - en p.1) * t / mec2
      = p.1 / 10000 * (1 + spread en p.1 / mec2 * t) := by
    unfold spread
    field_simp
  refine ⟨e, ?_⟩
  unfold eulerBin
  rw [e]
  have h1 : p.2 * (p.1 / 10000) / (p.1 / 10000 * (1 + spread en p.1 / mec2 * t))
      = p.2 / (1 + spread en p.1 / mec2 * t) := by
    rw [mul_comm p.2, mul_div_mul_left _ _ (by positivity)]
  rw [h1, mul_div_right_comm (en p.1)]

/-- all rates bounded by `K` and `K`-Lipschitz between `lo` and `hi` -/
structure Tame (mec2 : ℝ) (en rel abs : ℝ → ℝ) (lo hi K : ℝ) : Prop where
  one : 1 ≤ K
  en_bd : ∀ x ∈ Icc lo hi, |en x / mec2| ≤ K
  sp_bd : ∀ x ∈ Icc lo hi, |spread en x / mec2| ≤ K
  rel_bd : ∀ x ∈ Icc lo hi, |rel x| ≤ K
  abs_bd : ∀ x ∈ Icc lo hi, |abs x| ≤ K
  en_lip : ∀ x ∈ Icc lo hi, ∀ y ∈ Icc lo hi, |en x / mec2 - en y / mec2| ≤ K * |x - y|
  sp_lip : ∀ x ∈ Icc lo hi, ∀ y ∈ Icc lo hi, |spread en x / mec2 - spread en y / mec2| ≤ K * |x - y|
  rel_lip : ∀ x ∈ Icc lo hi, ∀ y ∈ Icc lo hi, |rel x - rel y| ≤ K * |x - y|
  abs_lip : ∀ x ∈ Icc lo hi, ∀ y ∈ Icc lo hi, |abs x - abs y| ≤ K * |x - y|

/-- error of the energies -/
theorem gamma_error {mec2 : ℝ} (hm : 0 < mec2) {en rel abs : ℝ → ℝ} {lo hi K η : ℝ} (hlo : 0 < lo) (hη0 : 0 ≤ η)
    (h : Tame mec2 en rel abs lo hi K) {T dt : ℝ} (hT : 0 ≤ T) (hp : 0 < dt) {g : ℝ → ℝ} {p : ℝ × ℝ} (hg0 : g 0 = p.1)
    (hg : ∀ t ∈ Icc 0 T, HasDerivWithinAt g (en (g t) / mec2) (Icc 0 T) t)
    (hin : ∀ t ∈ Icc 0 T, g t ∈ Icc (lo + η) (hi - η))
    (hη : K ^ 2 * dt * T * Real.exp (K * T) ≤ η) (k : ℕ) (hk : ∀ i, i < k → (i : ℝ) * dt < T) :
    |(binSeq (eulerBin mec2 en rel abs) dt T p k).1 - g (min (k * dt) T)| ≤ K ^ 2 * T * Real.exp (K * T) * dt
      ∧ (binSeq (eulerBin mec2 en rel abs) dt T p k).1 ∈ Icc lo hi := by
  have hK := h.one
  have hin' : ∀ t ∈ Icc 0 T, g t ∈ Icc lo hi := fun t ht => ⟨by linarith [(hin t ht).1], by linarith [(hin t ht).2]⟩
  have htm : ∀ k : ℕ, min ((k : ℝ) * dt) T ∈ Icc 0 T := fun k => ⟨le_min (by positivity) hT, min_le_right _ _⟩
  have hlip : ∀ t ∈ Icc 0 T, ∀ u ∈ Icc 0 T, |en (g u) / mec2 - en (g t) / mec2| ≤ K ^ 2 * |u - t| := by
    intro t ht u hu
    refine (h.en_lip _ (hin' u hu) _ (hin' t ht)).trans ?_
    have := lip_of_deriv hg (fun t ht => h.en_bd _ (hin' t ht)) ht hu
    calc K * |g u - g t| ≤ K * (K * |u - t|) := by gcongr
      _ = _ := by ring
  have tube : ∀ i : ℕ, |(binSeq (eulerBin mec2 en rel abs) dt T p i).1 - g (min (i * dt) T)| ≤ η →
      (binSeq (eulerBin mec2 en rel abs) dt T p i).1 ∈ Icc lo hi := by
    intro i hi'
    have h1 := hin _ (htm i)
    have h2 := abs_le.1 hi'
    exact ⟨by linarith [h1.1, h2.1], by linarith [h1.2, h2.2]⟩
  have acc := error_accumulates (E := fun i => |(binSeq (eulerBin mec2 en rel abs) dt T p i).1 - g (min (i * dt) T)|)
    (L := K) (c := K ^ 2) hp hT (by linarith) (by positivity) (by simp [binSeq, hg0, hT]) hη k hk (by
      intro i hi' hE
      have hiT := hk i hi'
      have hs := stepLen_pos hp hiT
      have hsd := stepLen_le dt T i
      have hmem := tube i hE
      rw [min_succ hiT, binSeq, (eulerBin_spread hm (hlo.trans_le hmem.1)).2]
      have ht := htm i
      have ht1 := htm (i + 1)
      rw [min_succ hiT] at ht1
      dsimp only
      set t := min ((i : ℝ) * dt) T
      set s := stepLen dt T i
      set y := (binSeq (eulerBin mec2 en rel abs) dt T p i).1
      have hloc := euler_local hg hlip (by positivity) ht.1 hs.le ht1.2
      have hf := h.en_lip y hmem (g t) (hin' t ht)
      have e : y + en y / mec2 * s - g (t + s)
          = (y - g t) + s * (en y / mec2 - en (g t) / mec2) - (g (t + s) - g t - s * (en (g t) / mec2)) := by ring
      rw [e]
      calc _ ≤ |y - g t| + |s * (en y / mec2 - en (g t) / mec2)| + |g (t + s) - g t - s * (en (g t) / mec2)| :=
            (abs_sub _ _).trans (add_le_add (abs_add_le _ _) le_rfl)
        _ ≤ |y - g t| + s * (K * |y - g t|) + K ^ 2 * s ^ 2 := by
            rw [abs_mul, abs_of_pos hs]
            gcongr
        _ ≤ |y - g t| + s * (K * |y - g t|) + K ^ 2 * (dt * s) := by
            have : s ^ 2 ≤ dt * s := by rw [sq]; gcongr
            gcongr
        _ = _ := by ring)
  refine ⟨acc.1.trans ?_, tube k acc.2⟩
  have h1 := (htm k).1
  have h2 := (htm k).2
  calc K ^ 2 * dt * min (k * dt) T * Real.exp (K * min (k * dt) T) ≤ K ^ 2 * dt * T * Real.exp (K * T) := by
        have : Real.exp (K * min (k * dt) T) ≤ Real.exp (K * T) := Real.exp_le_exp.2 (by gcongr)
        gcongr
    _ = _ := by ring

/-- arithmetic of `density_step` -/
theorem density_arith {K C dt s e : ℝ} (hK : 1 ≤ K) (hC : 0 ≤ C) (hp : 0 < dt) (hs : 0 < s) (hsd : s ≤ dt)
    (hdt : K * dt ≤ 1 / 4) (hen : 0 ≤ e) :
    e * (1 + s * (K + K)) + s * (K * (K * (C * dt) + K * (C * dt)) + K * (C * dt))
        + e * (4 / 3 * (K ^ 2 * s ^ 2)) + K * (4 / 3 * (K ^ 2 * s ^ 2)) + 9 * K ^ 3 * s ^ 2
      ≤ (1 + 3 * K * s) * e + (3 * K ^ 2 * C + 13 * K ^ 3) * dt * s := by
  have hK0 : 0 ≤ K := by linarith
  have hK2 : K ≤ K ^ 2 := by nlinarith
  have hs2 : s ^ 2 ≤ dt * s := by rw [sq]; gcongr
  have c1 : K * s ≤ 1 / 4 := (mul_le_mul_of_nonneg_left hsd hK0).trans hdt
  have c2 : 4 / 3 * (K ^ 2 * s ^ 2) ≤ K * s := by
    have : 0 ≤ K * s := by positivity
    nlinarith
  have c3 : e * (4 / 3 * (K ^ 2 * s ^ 2)) ≤ e * (K * s) := by gcongr
  have c4 : K * (C * dt) ≤ K ^ 2 * (C * dt) := by gcongr
  have c5 : s * (K * (K * (C * dt) + K * (C * dt)) + K * (C * dt)) ≤ s * (3 * (K ^ 2 * (C * dt))) := by
    have : K * (K * (C * dt) + K * (C * dt)) + K * (C * dt) ≤ 3 * (K ^ 2 * (C * dt)) := by
      nlinarith
    gcongr
  have c6 : K ^ 3 * s ^ 2 ≤ K ^ 3 * (dt * s) := by gcongr
  have c7 : 0 ≤ K ^ 3 * (dt * s) := by positivity
  have l1 : e * (1 + s * (K + K)) + e * (K * s) = (1 + 3 * K * s) * e := by ring
  have l2 : K * (4 / 3 * (K ^ 2 * s ^ 2)) = 4 / 3 * (K ^ 3 * s ^ 2) := by ring
  have l3 : (3 * K ^ 2 * C + 13 * K ^ 3) * dt * s = s * (3 * (K ^ 2 * (C * dt))) + 13 * (K ^ 3 * (dt * s)) := by ring
  rw [l2, l3]
  linarith

/-- error of the density after one step -/
theorem density_step {K C dt s n mt m1 r r0 D D0 a a0 : ℝ} (hK : 1 ≤ K) (hC : 0 ≤ C) (hp : 0 < dt) (hs : 0 < s)
    (hsd : s ≤ dt) (hdt : K * dt ≤ 1 / 4) (b1 : |r - r0| ≤ K * (C * dt)) (b2 : |D - D0| ≤ K * (C * dt))
    (b3 : |a - a0| ≤ K * (C * dt)) (b4 : |r| ≤ K) (b5 : |D| ≤ K) (b6 : |mt| ≤ K)
    (hloc : |m1 - mt - s * (mt * (r0 - D0) + a0)| ≤ 9 * K ^ 3 * s ^ 2) :
    |n / (1 + D * s) + (n * r + a) * s - m1|
      ≤ (1 + 3 * K * s) * |n - mt| + (3 * K ^ 2 * C + 13 * K ^ 3) * dt * s := by
  have hK0 : 0 ≤ K := by linarith
  have hDs : |D * s| ≤ 1 / 4 := by
    rw [abs_mul, abs_of_pos hs]
    calc |D| * s ≤ K * dt := by gcongr
      _ ≤ _ := hdt
  have hden : 3 / 4 ≤ 1 + D * s := by have := (abs_le.1 hDs).1; linarith
  have e : n / (1 + D * s) + (n * r + a) * s - m1
      = (n - mt) * (1 + s * (r - D))
        + s * (mt * ((r - r0) - (D - D0)) + (a - a0))
        + (n - mt) * (D * s) ^ 2 / (1 + D * s) + mt * (D * s) ^ 2 / (1 + D * s)
        - (m1 - mt - s * (mt * (r0 - D0) + a0)) := by
    have : (1 + D * s) ≠ 0 := by linarith
    field_simp
    ring
  have hinv : ((1 : ℝ) + D * s)⁻¹ ≤ 4 / 3 := by
    rw [inv_le_comm₀ (by linarith) (by norm_num)]
    linarith
  have hDsq : (D * s) ^ 2 ≤ K ^ 2 * s ^ 2 := by
    rw [mul_pow, ← sq_abs D]
    gcongr
  have hquad : (D * s) ^ 2 / (1 + D * s) ≤ 4 / 3 * (K ^ 2 * s ^ 2) := by
    rw [div_eq_mul_inv, mul_comm]
    have : 0 ≤ (1 + D * s)⁻¹ := inv_nonneg.2 (by linarith)
    gcongr
  have hquad0 : 0 ≤ (D * s) ^ 2 / (1 + D * s) := div_nonneg (sq_nonneg _) (by linarith)
  have hs2 : s ^ 2 ≤ dt * s := by rw [sq]; gcongr
  have hen := abs_nonneg (n - mt)
  rw [e]
  calc _ ≤ |(n - mt) * (1 + s * (r - D))|
        + |s * (mt * ((r - r0) - (D - D0)) + (a - a0))|
        + |(n - mt) * (D * s) ^ 2 / (1 + D * s)| + |mt * (D * s) ^ 2 / (1 + D * s)|
        + |m1 - mt - s * (mt * (r0 - D0) + a0)| :=
        (abs_sub _ _).trans (add_le_add ((abs_add_le _ _).trans (add_le_add ((abs_add_le _ _).trans
          (add_le_add (abs_add_le _ _) le_rfl)) le_rfl)) le_rfl)
    _ ≤ |n - mt| * (1 + s * (K + K)) + s * (K * (K * (C * dt) + K * (C * dt)) + K * (C * dt))
        + |n - mt| * (4 / 3 * (K ^ 2 * s ^ 2)) + K * (4 / 3 * (K ^ 2 * s ^ 2)) + 9 * K ^ 3 * s ^ 2 := by
        have a1 : |1 + s * (r - D)| ≤ 1 + s * (K + K) := by
          refine (abs_add_le _ _).trans ?_
          rw [abs_one, abs_mul, abs_of_pos hs]
          have := (abs_sub (r) D).trans (add_le_add b4 b5)
          gcongr
        have a2 : |mt * ((r - r0) - (D - D0)) + (a - a0)|
            ≤ K * (K * (C * dt) + K * (C * dt)) + K * (C * dt) := by
          refine (abs_add_le _ _).trans ?_
          rw [abs_mul]
          have c1 : |r - r0 - (D - D0)| ≤ K * (C * dt) + K * (C * dt) :=
            (abs_sub _ _).trans (add_le_add (b1) (b2))
          have c2 := b3
          gcongr
        have a3 : |(n - mt) * (D * s) ^ 2 / (1 + D * s)| ≤ |n - mt| * (4 / 3 * (K ^ 2 * s ^ 2)) := by
          rw [mul_div_assoc, abs_mul, abs_of_nonneg hquad0]
          gcongr
        have a4 : |mt * (D * s) ^ 2 / (1 + D * s)| ≤ K * (4 / 3 * (K ^ 2 * s ^ 2)) := by
          rw [mul_div_assoc, abs_mul, abs_of_nonneg hquad0]
          gcongr
        rw [abs_mul, abs_mul, abs_of_pos hs]
        gcongr
    _ ≤ (1 + 3 * K * s) * |n - mt| + (3 * K ^ 2 * C + 13 * K ^ 3) * dt * s := by
        exact density_arith hK hC hp hs hsd hdt hen

/-- error of the densities -/
theorem density_error {mec2 : ℝ} (hm : 0 < mec2) {en rel abs : ℝ → ℝ} {lo hi K C : ℝ} (hlo : 0 < lo)
    (h : Tame mec2 en rel abs lo hi K) {T dt : ℝ} (hT : 0 ≤ T) (hp : 0 < dt) {g m : ℝ → ℝ} {p : ℝ × ℝ} (hm0 : m 0 = p.2)
    (hg : ∀ t ∈ Icc 0 T, HasDerivWithinAt g (en (g t) / mec2) (Icc 0 T) t)
    (hmd : ∀ t ∈ Icc 0 T, HasDerivWithinAt m
      (m t * (rel (g t) - spread en (g t) / mec2) + abs (g t)) (Icc 0 T) t)
    (hin : ∀ t ∈ Icc 0 T, g t ∈ Icc lo hi) (hmb : ∀ t ∈ Icc 0 T, |m t| ≤ K) (hC : 0 ≤ C)
    (hdt : K * dt ≤ 1 / 4) (k : ℕ) (hk : ∀ i, i < k → (i : ℝ) * dt < T)
    (hE : ∀ i, i < k → |(binSeq (eulerBin mec2 en rel abs) dt T p i).1 - g (min (i * dt) T)| ≤ C * dt
      ∧ (binSeq (eulerBin mec2 en rel abs) dt T p i).1 ∈ Icc lo hi) :
    |(binSeq (eulerBin mec2 en rel abs) dt T p k).2 - m (min (k * dt) T)|
      ≤ (3 * K ^ 2 * C + 13 * K ^ 3) * T * Real.exp (3 * K * T) * dt := by
  have hK := h.one
  have hK0 : 0 ≤ K := by linarith
  have htm : ∀ k : ℕ, min ((k : ℝ) * dt) T ∈ Icc 0 T := fun k => ⟨le_min (by positivity) hT, min_le_right _ _⟩
  set q : ℝ → ℝ := fun t => m t * (rel (g t) - spread en (g t) / mec2) + abs (g t) with hq
  have hK2 : K ≤ K ^ 2 := by nlinarith
  have hK3 : K ^ 2 ≤ K ^ 3 := by nlinarith [sq_nonneg K]
  have hqb : ∀ t ∈ Icc 0 T, |q t| ≤ 3 * K ^ 2 := by
    intro t ht
    have h1 := h.rel_bd _ (hin t ht)
    have h2 := h.sp_bd _ (hin t ht)
    have h3 := h.abs_bd _ (hin t ht)
    have h4 := hmb t ht
    calc |q t| ≤ |m t * (rel (g t) - spread en (g t) / mec2)| + |abs (g t)| := abs_add_le _ _
      _ ≤ K * (K + K) + K := by
          rw [abs_mul]
          have : |rel (g t) - spread en (g t) / mec2| ≤ K + K := (abs_sub _ _).trans (add_le_add h1 h2)
          gcongr
      _ ≤ 3 * K ^ 2 := by nlinarith
  have hgl : ∀ t ∈ Icc 0 T, ∀ u ∈ Icc 0 T, |g u - g t| ≤ K * |u - t| := fun t ht u hu =>
    lip_of_deriv hg (fun t ht => h.en_bd _ (hin t ht)) ht hu
  have hml : ∀ t ∈ Icc 0 T, ∀ u ∈ Icc 0 T, |m u - m t| ≤ 3 * K ^ 2 * |u - t| := fun t ht u hu =>
    lip_of_deriv hmd hqb ht hu
  have hql : ∀ t ∈ Icc 0 T, ∀ u ∈ Icc 0 T, |q u - q t| ≤ 9 * K ^ 3 * |u - t| := by
    intro t ht u hu
    have e : q u - q t = m u * ((rel (g u) - rel (g t)) - (spread en (g u) / mec2 - spread en (g t) / mec2))
        + (m u - m t) * (rel (g t) - spread en (g t) / mec2) + (abs (g u) - abs (g t)) := by
      rw [hq]; ring
    have h1 := h.rel_lip _ (hin u hu) _ (hin t ht)
    have h2 := h.sp_lip _ (hin u hu) _ (hin t ht)
    have h3 := h.abs_lip _ (hin u hu) _ (hin t ht)
    have h4 := hmb u hu
    have h5 := h.rel_bd _ (hin t ht)
    have h6 := h.sp_bd _ (hin t ht)
    have h7 := hml t ht u hu
    have h8 := hgl t ht u hu
    have hd := abs_nonneg (u - t)
    have hK8 : K * |g u - g t| ≤ K ^ 2 * |u - t| := by
      calc K * |g u - g t| ≤ K * (K * |u - t|) := by gcongr
        _ = _ := by ring
    rw [e]
    calc _ ≤ |m u * ((rel (g u) - rel (g t)) - (spread en (g u) / mec2 - spread en (g t) / mec2))|
          + |(m u - m t) * (rel (g t) - spread en (g t) / mec2)| + |abs (g u) - abs (g t)| :=
          (abs_add_le _ _).trans (add_le_add (abs_add_le _ _) le_rfl)
      _ ≤ K * (K ^ 2 * |u - t| + K ^ 2 * |u - t|) + 3 * K ^ 2 * |u - t| * (K + K) + K ^ 2 * |u - t| := by
          rw [abs_mul, abs_mul]
          have a1 : |rel (g u) - rel (g t) - (spread en (g u) / mec2 - spread en (g t) / mec2)|
              ≤ K ^ 2 * |u - t| + K ^ 2 * |u - t| := (abs_sub _ _).trans (add_le_add (h1.trans hK8) (h2.trans hK8))
          have a2 : |rel (g t) - spread en (g t) / mec2| ≤ K + K := (abs_sub _ _).trans (add_le_add h5 h6)
          have a3 := h3.trans hK8
          gcongr
      _ ≤ 9 * K ^ 3 * |u - t| := by nlinarith
  have acc := error_accumulates (E := fun i => |(binSeq (eulerBin mec2 en rel abs) dt T p i).2 - m (min (i * dt) T)|)
    (L := 3 * K) (c := 3 * K ^ 2 * C + 13 * K ^ 3)
    hp hT (by linarith) (by positivity) (by simp [binSeq, hm0, hT])
    (le_refl ((3 * K ^ 2 * C + 13 * K ^ 3) * dt * T * Real.exp (3 * K * T))) k hk (by
      intro i hi' _
      have hiT := hk i hi'
      have hs := stepLen_pos hp hiT
      have hsd := stepLen_le dt T i
      obtain ⟨hEi, hmem⟩ := hE i hi'
      rw [min_succ hiT, binSeq, (eulerBin_spread hm (hlo.trans_le hmem.1)).2]
      have ht := htm i
      have ht1 := htm (i + 1)
      rw [min_succ hiT] at ht1
      dsimp only
      set t := min ((i : ℝ) * dt) T
      set s := stepLen dt T i
      set y := (binSeq (eulerBin mec2 en rel abs) dt T p i).1
      set n := (binSeq (eulerBin mec2 en rel abs) dt T p i).2
      have hloc := euler_local hmd hql (by positivity) ht.1 hs.le ht1.2
      have b1 := h.rel_lip y hmem (g t) (hin t ht)
      have b2 := h.sp_lip y hmem (g t) (hin t ht)
      have b3 := h.abs_lip y hmem (g t) (hin t ht)
      have b4 := h.rel_bd y hmem
      have b5 := h.sp_bd y hmem
      have b6 := hmb t ht
      set D := spread en y / mec2
      exact density_step hK hC hp hs hsd hdt (b1.trans (by gcongr)) (b2.trans (by gcongr)) (b3.trans (by gcongr)) b4 b5 b6
        hloc)
  refine acc.1.trans ?_
  have h1 := (htm k).1
  have h2 := (htm k).2
  calc _ ≤ (3 * K ^ 2 * C + 13 * K ^ 3) * dt * T * Real.exp (3 * K * T) := by
        have : Real.exp (3 * K * min (k * dt) T) ≤ Real.exp (3 * K * T) := Real.exp_le_exp.2 (by gcongr)
        gcongr
    _ = _ := by ring

end Verif.TE
