import Verif.Props.TEConvergence
import Verif.Props.TEHeunRun

/- Error of Heun's method for one bin against the solution of the kinetic equations. -/

namespace Verif.TE

open Set

/-- error of the trapezoidal rule along a solution -/
theorem trapezoid_local {g q q1 : ℝ → ℝ} {T Q : ℝ} (h : ∀ t ∈ Icc 0 T, HasDerivWithinAt g (q t) (Icc 0 T) t)
    (hq : ∀ t ∈ Icc 0 T, HasDerivWithinAt q (q1 t) (Icc 0 T) t)
    (hq1 : ∀ t ∈ Icc 0 T, ∀ u ∈ Icc 0 T, |q1 u - q1 t| ≤ Q * |u - t|) (hQ : 0 ≤ Q) {t s : ℝ} (ht : 0 ≤ t) (hs : 0 ≤ s)
    (hts : t + s ≤ T) : |g (t + s) - g t - s * ((q t + q (t + s)) / 2)| ≤ Q * s ^ 3 := by
  have hsub : Icc t (t + s) ⊆ Icc 0 T := Icc_subset_Icc ht hts
  have ht' : t ∈ Icc 0 T := ⟨ht, by linarith⟩
  have h1 : ∀ u ∈ Icc t (t + s), HasDerivWithinAt (fun u => g u - (u - t) * ((q t + q u) / 2))
      (q u - (1 * ((q t + q u) / 2) + (u - t) * (q1 u / 2))) (Icc t (t + s)) u := by
    intro u hu
    have a1 := (h u (hsub hu)).mono hsub
    have a2 := ((hq u (hsub hu)).mono hsub).const_add (q t) |>.div_const 2
    have a3 := (hasDerivWithinAt_id u (Icc t (t + s))).sub_const t
    exact a1.sub (a3.mul a2)
  have h2 : ∀ u ∈ Icc t (t + s), ‖q u - (1 * ((q t + q u) / 2) + (u - t) * (q1 u / 2))‖ ≤ Q * s ^ 2 := by
    intro u hu
    have hu0 : 0 ≤ u - t := by linarith [hu.1]
    have hus : u - t ≤ s := by linarith [hu.2]
    have b1 := euler_local hq hq1 hQ ht hu0 (by linarith [hu.2])
    have b2 := hq1 t ht' u (hsub hu)
    rw [add_sub_cancel] at b1
    rw [abs_of_nonneg hu0] at b2
    have e : q u - (1 * ((q t + q u) / 2) + (u - t) * (q1 u / 2))
        = (q u - q t - (u - t) * q1 t) / 2 - (u - t) * (q1 u - q1 t) / 2 := by ring
    rw [e, Real.norm_eq_abs]
    refine (abs_sub _ _).trans ?_
    rw [abs_div, abs_div, abs_mul, abs_of_nonneg hu0, abs_two]
    have b3 : (u - t) * |q1 u - q1 t| ≤ (u - t) * (Q * (u - t)) := mul_le_mul_of_nonneg_left b2 hu0
    have b4 : Q * (u - t) ^ 2 ≤ Q * s ^ 2 := by gcongr
    nlinarith
  have h3 := (convex_Icc t (t + s)).norm_image_sub_le_of_norm_hasDerivWithin_le h1 h2
    (left_mem_Icc.2 (by linarith)) (right_mem_Icc.2 (by linarith))
  rw [Real.norm_eq_abs, Real.norm_eq_abs] at h3
  have e1 : g (t + s) - (t + s - t) * ((q t + q (t + s)) / 2) - (g t - (t - t) * ((q t + q t) / 2))
      = g (t + s) - g t - s * ((q t + q (t + s)) / 2) := by ring
  have e2 : |t + s - t| = s := by rw [add_sub_cancel_left, abs_of_nonneg hs]
  rw [e1, e2] at h3
  calc _ ≤ Q * s ^ 2 * s := h3
    _ = Q * s ^ 3 := by ring

/-- error of one step of Heun's method along a solution -/
theorem heun_local {f g q1 : ℝ → ℝ} {T Q K lo hi : ℝ} (h : ∀ t ∈ Icc 0 T, HasDerivWithinAt g (f (g t)) (Icc 0 T) t)
    (hq : ∀ t ∈ Icc 0 T, HasDerivWithinAt (fun t => f (g t)) (q1 t) (Icc 0 T) t)
    (hq1 : ∀ t ∈ Icc 0 T, ∀ u ∈ Icc 0 T, |q1 u - q1 t| ≤ Q * |u - t|) (hQ : 0 ≤ Q) (hK : 0 ≤ K)
    (hb : ∀ x ∈ Icc lo hi, |f x| ≤ K) (hf : ∀ x ∈ Icc lo hi, ∀ y ∈ Icc lo hi, |f x - f y| ≤ K * |x - y|)
    (hin : ∀ t ∈ Icc 0 T, g t ∈ Icc lo hi) {t s : ℝ} (ht : 0 ≤ t) (hs : 0 ≤ s)
    (hts : t + s ≤ T) (htr : g t + s * f (g t) ∈ Icc lo hi) :
    |g (t + s) - g t - s * ((f (g t) + f (g t + s * f (g t))) / 2)| ≤ (Q + K ^ 3) * s ^ 3 := by
  have ht' : t ∈ Icc 0 T := ⟨ht, by linarith⟩
  have hts' : t + s ∈ Icc 0 T := ⟨by linarith, hts⟩
  have a1 := trapezoid_local h hq hq1 hQ ht hs hts
  have hlip : ∀ t ∈ Icc 0 T, ∀ u ∈ Icc 0 T, |f (g u) - f (g t)| ≤ K ^ 2 * |u - t| := by
    intro t ht u hu
    refine (hf _ (hin u hu) _ (hin t ht)).trans ?_
    have := lip_of_deriv h (fun t ht => hb _ (hin t ht)) ht hu
    calc K * |g u - g t| ≤ K * (K * |u - t|) := by gcongr
      _ = _ := by ring
  have a2 := euler_local h hlip (by positivity) ht hs hts
  have a3 := hf _ (hin _ hts') _ htr
  rw [← sub_sub] at a3
  have a4 : |f (g (t + s)) - f (g t + s * f (g t))| ≤ K * (K ^ 2 * s ^ 2) := a3.trans (by gcongr)
  have e : g (t + s) - g t - s * ((f (g t) + f (g t + s * f (g t))) / 2)
      = (g (t + s) - g t - s * ((f (g t) + f (g (t + s))) / 2))
        + s * ((f (g (t + s)) - f (g t + s * f (g t))) / 2) := by ring
  rw [e]
  refine (abs_add_le _ _).trans ?_
  rw [abs_mul, abs_of_nonneg hs, abs_div, abs_two]
  have a5 : s * (|f (g (t + s)) - f (g t + s * f (g t))| / 2) ≤ s * (K * (K ^ 2 * s ^ 2) / 2) := by gcongr
  have a6 : 0 ≤ K ^ 3 * s ^ 3 := by positivity
  nlinarith

/-- accumulated error of the energies, for any method of the form `γ + φ(γ)·t` with a bound on the error of one step -/
theorem gamma_error_order {mec2 : ℝ} (hm : 0 < mec2) {φ : ℝ → ℝ → ℝ} {rel abs : ℝ → ℝ} {lo hi K η c : ℝ} (hlo : 0 < lo)
    (hc : 0 ≤ c) {T dt : ℝ} (h : ∀ s, 0 < s → s ≤ dt → Tame mec2 (φ s) rel abs lo hi K) (hK1 : 1 ≤ K)
    (hT : 0 ≤ T) (hp : 0 < dt) {g : ℝ → ℝ}
    {p : ℝ × ℝ} (hg0 : g 0 = p.1)
    (hη0 : 0 ≤ η) (hin : ∀ t ∈ Icc 0 T, g t ∈ Icc (lo + η) (hi - η))
    (hloc : ∀ t s, 0 ≤ t → 0 < s → s ≤ dt → t + s ≤ T → |g (t + s) - g t - s * (φ s (g t) / mec2)| ≤ c * s ^ 3)
    (hη : c * dt * dt * T * Real.exp (K * T) ≤ η) (k : ℕ) (hk : ∀ i, i < k → (i : ℝ) * dt < T) :
    |(binSeq (fun s => eulerBin mec2 (φ s) rel abs s) dt T p k).1 - g (min (k * dt) T)|
        ≤ c * T * Real.exp (K * T) * dt ^ 2
      ∧ (binSeq (fun s => eulerBin mec2 (φ s) rel abs s) dt T p k).1 ∈ Icc lo hi := by
  have hin' : ∀ t ∈ Icc 0 T, g t ∈ Icc lo hi := fun t ht => ⟨by linarith [(hin t ht).1], by linarith [(hin t ht).2]⟩
  have htm : ∀ k : ℕ, min ((k : ℝ) * dt) T ∈ Icc 0 T := fun k => ⟨le_min (by positivity) hT, min_le_right _ _⟩
  set F : ℝ → ℝ × ℝ → ℝ × ℝ := fun s => eulerBin mec2 (φ s) rel abs s with hF
  have tube : ∀ i : ℕ, |(binSeq F dt T p i).1 - g (min (i * dt) T)| ≤ η → (binSeq F dt T p i).1 ∈ Icc lo hi := by
    intro i hi'
    have h1 := hin _ (htm i)
    have h2 := abs_le.1 hi'
    exact ⟨by linarith [h1.1, h2.1], by linarith [h1.2, h2.2]⟩
  have acc := error_accumulates (E := fun i => |(binSeq F dt T p i).1 - g (min (i * dt) T)|)
    (L := K) (c := c * dt) hp hT (by linarith) (by positivity) (by simp [binSeq, hg0, hT]) hη k hk (by
      intro i hi' hE
      have hiT := hk i hi'
      have hs := stepLen_pos hp hiT
      have hsd := stepLen_le dt T i
      have hmem := tube i hE
      rw [min_succ hiT, binSeq]
      have ht := htm i
      have ht1 := htm (i + 1)
      rw [min_succ hiT] at ht1
      have e0 : (F (stepLen dt T i) (binSeq F dt T p i)).1 = (binSeq F dt T p i).1
          + φ (stepLen dt T i) (binSeq F dt T p i).1 / mec2 * stepLen dt T i := by
        rw [hF]
        dsimp only
        rw [(eulerBin_spread hm (hlo.trans_le hmem.1)).2]
      rw [e0]
      set t := min ((i : ℝ) * dt) T
      set s := stepLen dt T i
      set y := (binSeq F dt T p i).1
      have hl := hloc t s ht.1 hs hsd ht1.2
      have hf := (h s hs hsd).en_lip y hmem (g t) (hin' t ht)
      have e : y + φ s y / mec2 * s - g (t + s)
          = (y - g t) + s * (φ s y / mec2 - φ s (g t) / mec2) - (g (t + s) - g t - s * (φ s (g t) / mec2)) := by ring
      rw [e]
      calc _ ≤ |y - g t| + |s * (φ s y / mec2 - φ s (g t) / mec2)| + |g (t + s) - g t - s * (φ s (g t) / mec2)| :=
            (abs_sub _ _).trans (add_le_add (abs_add_le _ _) le_rfl)
        _ ≤ |y - g t| + s * (K * |y - g t|) + c * s ^ 3 := by
            rw [abs_mul, abs_of_pos hs]
            gcongr
        _ ≤ |y - g t| + s * (K * |y - g t|) + c * (dt * dt * s) := by
            have : s ^ 3 ≤ dt * dt * s := by
              calc s ^ 3 = s * s * s := by ring
                _ ≤ _ := by gcongr
            gcongr
        _ = _ := by ring)
  refine ⟨acc.1.trans ?_, tube k acc.2⟩
  have h1 := (htm k).1
  have h2 := (htm k).2
  calc c * dt * dt * min (k * dt) T * Real.exp (K * min (k * dt) T) ≤ c * dt * dt * T * Real.exp (K * T) := by
        have : Real.exp (K * min (k * dt) T) ≤ Real.exp (K * T) := Real.exp_le_exp.2 (by gcongr)
        gcongr
    _ = _ := by ring

/-- error of the densities for a method whose energy changes are read from `φ s` in a step `s` -/
theorem density_error_order {mec2 : ℝ} (hm : 0 < mec2) {φ : ℝ → ℝ → ℝ} {en rel abs : ℝ → ℝ} {lo hi K C : ℝ} (hlo : 0 < lo)
    (h : Tame mec2 en rel abs lo hi K) {T dt : ℝ}
    (hφ : ∀ s, 0 < s → s ≤ dt → Tame mec2 (φ s) rel abs lo hi K)
    (hcons : ∀ s, 0 < s → s ≤ dt → ∀ x ∈ Icc lo hi, |spread (φ s) x / mec2 - spread en x / mec2| ≤ K * (C * dt))
    (hT : 0 ≤ T) (hp : 0 < dt) {g m : ℝ → ℝ} {p : ℝ × ℝ} (hm0 : m 0 = p.2)
    (hg : ∀ t ∈ Icc 0 T, HasDerivWithinAt g (en (g t) / mec2) (Icc 0 T) t)
    (hmd : ∀ t ∈ Icc 0 T, HasDerivWithinAt m
      (m t * (rel (g t) - spread en (g t) / mec2) + abs (g t)) (Icc 0 T) t)
    (hin : ∀ t ∈ Icc 0 T, g t ∈ Icc lo hi) (hmb : ∀ t ∈ Icc 0 T, |m t| ≤ K) (hC : 0 ≤ C)
    (hdt : K * dt ≤ 1 / 4) (k : ℕ) (hk : ∀ i, i < k → (i : ℝ) * dt < T)
    (hE : ∀ i, i < k → |(binSeq (fun s => eulerBin mec2 (φ s) rel abs s) dt T p i).1 - g (min (i * dt) T)| ≤ C * dt
      ∧ (binSeq (fun s => eulerBin mec2 (φ s) rel abs s) dt T p i).1 ∈ Icc lo hi) :
    |(binSeq (fun s => eulerBin mec2 (φ s) rel abs s) dt T p k).2 - m (min (k * dt) T)|
      ≤ (3 * K ^ 2 * (2 * C) + 13 * K ^ 3) * T * Real.exp (3 * K * T) * dt := by
  have hK := h.one
  set F : ℝ → ℝ × ℝ → ℝ × ℝ := fun s => eulerBin mec2 (φ s) rel abs s with hF
  have hK0 : 0 ≤ K := by linarith
  have htm : ∀ k : ℕ, min ((k : ℝ) * dt) T ∈ Icc 0 T := fun k => ⟨le_min (by positivity) hT, min_le_right _ _⟩
  set q : ℝ → ℝ := fun t => m t * (rel (g t) - spread en (g t) / mec2) + abs (g t) with hq
  have hK2 : K ≤ K ^ 2 := by nlinarith
  have hK3 : K ^ 2 ≤ K ^ 3 := by nlinarith [sq_nonneg K]
  have hqb : ∀ t ∈ Icc 0 T, |q t| ≤ 3 * K ^ 2 := by
    intro t ht
    have h1 := h.rel_bd _ (hin t ht)
    have h2 := h.sp_bd _ (hin t ht)
    have h3 := h.abs_bd _ (hin t ht)
    have h4 := hmb t ht
    calc |q t| ≤ |m t * (rel (g t) - spread en (g t) / mec2)| + |abs (g t)| := abs_add_le _ _
      _ ≤ K * (K + K) + K := by
          rw [abs_mul]
          have : |rel (g t) - spread en (g t) / mec2| ≤ K + K := (abs_sub _ _).trans (add_le_add h1 h2)
          gcongr
      _ ≤ 3 * K ^ 2 := by nlinarith
  have hgl : ∀ t ∈ Icc 0 T, ∀ u ∈ Icc 0 T, |g u - g t| ≤ K * |u - t| := fun t ht u hu =>
    lip_of_deriv hg (fun t ht => h.en_bd _ (hin t ht)) ht hu
  have hml : ∀ t ∈ Icc 0 T, ∀ u ∈ Icc 0 T, |m u - m t| ≤ 3 * K ^ 2 * |u - t| := fun t ht u hu =>
    lip_of_deriv hmd hqb ht hu
  have hql : ∀ t ∈ Icc 0 T, ∀ u ∈ Icc 0 T, |q u - q t| ≤ 9 * K ^ 3 * |u - t| := by
    intro t ht u hu
    have e : q u - q t = m u * ((rel (g u) - rel (g t)) - (spread en (g u) / mec2 - spread en (g t) / mec2))
        + (m u - m t) * (rel (g t) - spread en (g t) / mec2) + (abs (g u) - abs (g t)) := by
      rw [hq]; ring
    have h1 := h.rel_lip _ (hin u hu) _ (hin t ht)
    have h2 := h.sp_lip _ (hin u hu) _ (hin t ht)
    have h3 := h.abs_lip _ (hin u hu) _ (hin t ht)
    have h4 := hmb u hu
    have h5 := h.rel_bd _ (hin t ht)
    have h6 := h.sp_bd _ (hin t ht)
    have h7 := hml t ht u hu
    have h8 := hgl t ht u hu
    have hd := abs_nonneg (u - t)
    have hK8 : K * |g u - g t| ≤ K ^ 2 * |u - t| := by
      calc K * |g u - g t| ≤ K * (K * |u - t|) := by gcongr
        _ = _ := by ring
    rw [e]
    calc _ ≤ |m u * ((rel (g u) - rel (g t)) - (spread en (g u) / mec2 - spread en (g t) / mec2))|
          + |(m u - m t) * (rel (g t) - spread en (g t) / mec2)| + |abs (g u) - abs (g t)| :=
          (abs_add_le _ _).trans (add_le_add (abs_add_le _ _) le_rfl)
      _ ≤ K * (K ^ 2 * |u - t| + K ^ 2 * |u - t|) + 3 * K ^ 2 * |u - t| * (K + K) + K ^ 2 * |u - t| := by
          rw [abs_mul, abs_mul]
          have a1 : |rel (g u) - rel (g t) - (spread en (g u) / mec2 - spread en (g t) / mec2)|
              ≤ K ^ 2 * |u - t| + K ^ 2 * |u - t| := (abs_sub _ _).trans (add_le_add (h1.trans hK8) (h2.trans hK8))
          have a2 : |rel (g t) - spread en (g t) / mec2| ≤ K + K := (abs_sub _ _).trans (add_le_add h5 h6)
          have a3 := h3.trans hK8
          gcongr
      _ ≤ 9 * K ^ 3 * |u - t| := by nlinarith
  have acc := error_accumulates (E := fun i => |(binSeq F dt T p i).2 - m (min (i * dt) T)|)
    (L := 3 * K) (c := 3 * K ^ 2 * (2 * C) + 13 * K ^ 3)
    hp hT (by linarith) (by positivity) (by simp [binSeq, hm0, hT])
    (le_refl ((3 * K ^ 2 * (2 * C) + 13 * K ^ 3) * dt * T * Real.exp (3 * K * T))) k hk (by
      intro i hi' _
      have hiT := hk i hi'
      have hs := stepLen_pos hp hiT
      have hsd := stepLen_le dt T i
      obtain ⟨hEi, hmem⟩ := hE i hi'
      rw [min_succ hiT, binSeq]
      have e0 : (F (stepLen dt T i) (binSeq F dt T p i)).2 = (binSeq F dt T p i).2
            / (1 + spread (φ (stepLen dt T i)) (binSeq F dt T p i).1 / mec2 * stepLen dt T i)
          + ((binSeq F dt T p i).2 * rel (binSeq F dt T p i).1 + abs (binSeq F dt T p i).1) * stepLen dt T i := by
        rw [hF]
        dsimp only
        rw [(eulerBin_spread hm (hlo.trans_le hmem.1)).2]
      rw [e0]
      have ht := htm i
      have ht1 := htm (i + 1)
      rw [min_succ hiT] at ht1
      set t := min ((i : ℝ) * dt) T
      set s := stepLen dt T i
      set y := (binSeq F dt T p i).1
      set n := (binSeq F dt T p i).2
      have hloc := euler_local hmd hql (by positivity) ht.1 hs.le ht1.2
      have b1 := h.rel_lip y hmem (g t) (hin t ht)
      have b2 := h.sp_lip y hmem (g t) (hin t ht)
      have b3 := h.abs_lip y hmem (g t) (hin t ht)
      have b4 := h.rel_bd y hmem
      have b5 := (hφ s hs hsd).sp_bd y hmem
      have b6 := hmb t ht
      have b7 := hcons s hs hsd y hmem
      have b8 : |spread (φ s) y / mec2 - spread en (g t) / mec2| ≤ K * (2 * C * dt) := by
        have e : spread (φ s) y / mec2 - spread en (g t) / mec2 = (spread (φ s) y / mec2 - spread en y / mec2)
          + (spread en y / mec2 - spread en (g t) / mec2) := by ring
        rw [e]
        refine (abs_add_le _ _).trans ?_
        have : K * |y - g t| ≤ K * (C * dt) := by gcongr
        linarith
      have hCC : C * dt ≤ 2 * C * dt := by nlinarith [mul_nonneg hC hp.le]
      exact density_step hK (by positivity) hp hs hsd hdt (b1.trans (by gcongr; exact hEi.trans hCC)) b8
        (b3.trans (by gcongr; exact hEi.trans hCC)) b4 b5 b6 hloc)
  refine acc.1.trans ?_
  have h1 := (htm k).1
  have h2 := (htm k).2
  calc _ ≤ (3 * K ^ 2 * (2 * C) + 13 * K ^ 3) * dt * T * Real.exp (3 * K * T) := by
        have : Real.exp (3 * K * min (k * dt) T) ≤ Real.exp (3 * K * T) := Real.exp_le_exp.2 (by gcongr)
        gcongr
    _ = _ := by ring


/-- one step keeps bins apart and densities non-negative -/
theorem good_step {mec2 : ℝ} (hm : 0 < mec2) {en rel abs : ℝ → ℝ} {lo hi K : ℝ} (hlo : 0 < lo)
    (h : Tame mec2 en rel abs lo hi K) (hinj : ∀ x ∈ Icc lo hi, 0 ≤ abs x) {s : ℝ} (hs : 0 < s) (hKs : K * s ≤ 1 / 4) :
    (∀ p : ℝ × ℝ, p.1 ∈ Icc lo hi → 0 < p.1 / 10000 + (en (p.1 * (1 + 1 / 10000)) - en p.1) * s / mec2 ∧
      (0 ≤ p.2 → 0 ≤ (eulerBin mec2 en rel abs s p).2) ∧ (0 < p.2 → 0 < (eulerBin mec2 en rel abs s p).2)) ∧
    ∀ p q : ℝ × ℝ, p.1 ∈ Icc lo hi → q.1 ∈ Icc lo hi → p.1 < q.1 →
      (eulerBin mec2 en rel abs s p).1 < (eulerBin mec2 en rel abs s q).1 := by
  constructor
  · intro p hp
    have h0 := hlo.trans_le hp.1
    obtain ⟨e1, e2⟩ := eulerBin_spread (en := en) (rel := rel) (abs := abs) (t := s) hm h0
    have h1 := h.sp_bd _ hp
    have h2 : |spread en p.1 / mec2 * s| ≤ 1 / 4 := by
      rw [abs_mul, abs_of_pos hs]
      exact (mul_le_mul_of_nonneg_right h1 hs.le).trans hKs
    have h3 := (abs_le.1 h2).1
    rw [e1, e2]
    have := density_sign (n := p.2) hs hKs (h.rel_bd _ hp) h1 (hinj _ hp)
    exact ⟨mul_pos (by positivity) (by linarith), this.1, this.2⟩
  · intro p q hp hq hpq
    rw [(eulerBin_spread hm (hlo.trans_le hp.1)).2, (eulerBin_spread hm (hlo.trans_le hq.1)).2]
    have hl := h.en_lip _ hq _ hp
    dsimp only
    generalize p.1 = a at *
    generalize q.1 = b at *
    rw [abs_of_pos (sub_pos.2 hpq)] at hl
    have := (abs_le.1 hl).1
    have h3 : -(K * (b - a)) * s ≤ (en b / mec2 - en a / mec2) * s := mul_le_mul_of_nonneg_right this hs.le
    nlinarith [sub_pos.2 hpq]

theorem smooth_of {cfg : Cfg ℝ} {en rel abs : ℝ → ℝ} {lo hi K s : ℝ} (hm : 0 < cfg.mec2) (hlo : 0 < lo)
    (h : Tame cfg.mec2 en rel abs lo hi K) (hinj : ∀ x ∈ Icc lo hi, 0 ≤ abs x) (hs : 0 < s) (hKs : K * s ≤ 1 / 4)
    (hlog : ∀ x, 0 < x → cfg.num.log10 x = Real.logb 10 x) {g0 : List ℝ} {f : ℝ → ℝ} {q : ℝ → ℝ × ℝ}
    (hQ : ∀ x ∈ g0, (q x).1 ∈ Icc lo hi) (hord : g0.Pairwise fun x y => (q x).1 < (q y).1)
    (hnn : ∀ x ∈ g0, 0 ≤ (q x).2) (hpp : ∀ x ∈ g0, 0 < f x → 0 < (q x).2)
    (htwo : 2 ≤ (g0.filter fun x => decide (0 < f x)).length)
    (hpos : ∀ x ∈ g0, 0 < (eulerBin cfg.mec2 en rel abs s (q x)).1)
    (hap : ∀ thr, cfg.mergeCloser = some thr → ∀ j, j + 1 < g0.length →
      thr ≤ Real.logb 10 (eulerBin cfg.mec2 en rel abs s (q (g0.getD (j + 1) 0))).1
        - Real.logb 10 (eulerBin cfg.mec2 en rel abs s (q (g0.getD j 0))).1) :
    Smooth cfg en rel abs s (g0.map q) := by
  obtain ⟨s1, s2⟩ := good_step hm hlo h hinj hs hKs
  refine ⟨?_, ?_, ?_, ?_, ?_, ?_⟩
  · simp only [List.mem_map]
    rintro p ⟨x, hx, rfl⟩
    exact hpos x hx
  · simp only [List.mem_map]
    rintro p ⟨x, hx, rfl⟩
    exact (s1 _ (hQ x hx)).1
  · simp only [List.mem_map]
    rintro p ⟨x, hx, rfl⟩
    exact (s1 _ (hQ x hx)).2.1 (hnn x hx)
  · rw [List.pairwise_map, List.pairwise_map]
    refine hord.imp_of_mem ?_
    intro x y hx hy hxy
    rw [hlog _ (hpos x hx), hlog _ (hpos y hy)]
    exact Real.logb_lt_logb (by norm_num) (hpos x hx) (s2 _ _ (hQ x hx) (hQ y hy) hxy)
  · intro δ hδ j hj
    rw [List.length_map] at hj
    have hx : g0.getD j 0 ∈ g0 := getD_mem (by omega)
    have hy : g0.getD (j + 1) 0 ∈ g0 := getD_mem (by omega)
    rw [getD_map_pair (f := q) hj, getD_map_pair (f := q) (by omega), hlog _ (hpos _ hx), hlog _ (hpos _ hy)]
    exact hap δ hδ j hj
  · right
    rw [List.filter_map, List.length_map]
    refine filter_pos_length (f := f) ?_ htwo
    intro x hx h0
    exact ne_of_gt ((s1 _ (hQ x hx)).2.2 (hpp x hx h0))

/-- the mean rate inherits bounds -/
theorem meanRate_lipschitz {en rel abs : ℝ → ℝ} {lo hi lo' hi' Λ A mec2 : ℝ} (hm : 0 < mec2) (hΛ : 0 ≤ Λ)
    (h : LipschitzRates en rel abs lo hi Λ) (hl : lo ≤ lo') (hh : hi' ≤ hi)
    (hA : ∀ x ∈ Icc lo (hi * (1 + 1 / 10000)), |en x / mec2| ≤ A) {s : ℝ} (hs : 0 < s) (h1 : s * A ≤ lo' - lo)
    (h2 : s * A ≤ hi - hi') (h3 : s * Λ ≤ mec2) :
    LipschitzRates (meanRate mec2 en s) rel abs lo' hi' (2 * Λ) ∧
    ∀ x ∈ Icc lo' (hi' * (1 + 1 / 10000)), x + en x * s / mec2 ∈ Icc lo (hi * (1 + 1 / 10000)) ∧
      |meanRate mec2 en s x| ≤ mec2 * A ∧ |meanRate mec2 en s x - en x| ≤ Λ * A * s := by
  have hsub : ∀ x ∈ Icc lo' (hi' * (1 + 1 / 10000)), x ∈ Icc lo (hi * (1 + 1 / 10000)) := fun x hx =>
    ⟨hl.trans hx.1, by nlinarith [hx.2]⟩
  have htr : ∀ x ∈ Icc lo' (hi' * (1 + 1 / 10000)), x + en x * s / mec2 ∈ Icc lo (hi * (1 + 1 / 10000)) := by
    intro x hx
    have hb := abs_le.1 (hA x (hsub x hx))
    rw [mul_div_right_comm]
    have c1 : -A * s ≤ en x / mec2 * s := mul_le_mul_of_nonneg_right hb.1 hs.le
    have c2 : en x / mec2 * s ≤ A * s := mul_le_mul_of_nonneg_right hb.2 hs.le
    exact ⟨by linarith [hx.1], by nlinarith [hx.2]⟩
  have hsub' : ∀ x ∈ Icc lo' hi', x ∈ Icc lo hi := fun x hx => ⟨hl.trans hx.1, hx.2.trans hh⟩
  refine ⟨⟨?_, ?_, ?_, ?_⟩, ?_⟩
  · intro x hx y hy
    have a1 := h.energy x (hsub x hx) y (hsub y hy)
    have a2 := h.energy _ (htr x hx) _ (htr y hy)
    have e : x + en x * s / mec2 - (y + en y * s / mec2) = (x - y) + (en x - en y) * (s / mec2) := by ring
    have a3 : |x + en x * s / mec2 - (y + en y * s / mec2)| ≤ 2 * |x - y| := by
      rw [e]
      refine (abs_add_le _ _).trans ?_
      rw [abs_mul, abs_of_pos (by positivity : 0 < s / mec2)]
      have : |en x - en y| * (s / mec2) ≤ |x - y| := by
        calc |en x - en y| * (s / mec2) ≤ Λ * |x - y| * (s / mec2) := by gcongr
          _ = s * Λ / mec2 * |x - y| := by ring
          _ ≤ 1 * |x - y| := by
              have : s * Λ / mec2 ≤ 1 := by rw [div_le_one hm]; exact h3
              gcongr
          _ = _ := one_mul _
      linarith
    have a4 : |en (x + en x * s / mec2) - en (y + en y * s / mec2)| ≤ Λ * (2 * |x - y|) := a2.trans (by gcongr)
    unfold meanRate
    rw [← sub_div, abs_div, abs_two]
    have e2 : en x + en (x + en x * s / mec2) - (en y + en (y + en y * s / mec2))
      = (en x - en y) + (en (x + en x * s / mec2) - en (y + en y * s / mec2)) := by ring
    rw [e2]
    have a5 := abs_add_le (en x - en y) (en (x + en x * s / mec2) - en (y + en y * s / mec2))
    have : 0 ≤ Λ * |x - y| := by positivity
    linarith
  · intro x hx y hy
    have : 0 ≤ Λ * |x - y| := by positivity
    linarith [h.escape x (hsub' x hx) y (hsub' y hy)]
  · intro x hx y hy
    have : 0 ≤ Λ * |x - y| := by positivity
    linarith [h.source x (hsub' x hx) y (hsub' y hy)]
  · exact fun x hx => h.inj x (hsub' x hx)
  · intro x hx
    refine ⟨htr x hx, ?_, ?_⟩
    · have b1 := hA x (hsub x hx)
      have b2 := hA _ (htr x hx)
      rw [abs_div, abs_of_pos hm, div_le_iff₀ hm] at b1 b2
      unfold meanRate
      rw [abs_div, abs_two]
      have := abs_add_le (en x) (en (x + en x * s / mec2))
      linarith
    · have b1 := hA x (hsub x hx)
      have b2 := h.energy _ (htr x hx) x (hsub x hx)
      have e : meanRate mec2 en s x - en x = (en (x + en x * s / mec2) - en x) / 2 := by unfold meanRate; ring
      rw [e, abs_div, abs_two]
      have e3 : |x + en x * s / mec2 - x| = |en x / mec2| * s := by
        rw [add_sub_cancel_left, mul_div_right_comm, abs_mul, abs_of_pos hs]
      rw [e3] at b2
      have b3 : Λ * (|en x / mec2| * s) ≤ Λ * (A * s) := by gcongr
      have b4 : 0 ≤ Λ * (A * s) := le_trans (by positivity) b3
      linarith

end Verif.TE
