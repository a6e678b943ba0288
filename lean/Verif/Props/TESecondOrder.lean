import Verif.Lemmas.HeunError

/-
C82: with `method="heun"` the energies converge with second order to the solution of the kinetic equations; the densities
with first order.
-/

namespace Verif.TE

open Verif.Np Set

/-- the energy change has a Lipschitz derivative between two Lorentz factors -/
structure SmoothEnergy (en en' : ℝ → ℝ) (lo hi Λ : ℝ) : Prop where
  deriv : ∀ x ∈ Icc lo hi, HasDerivWithinAt en (en' x) (Icc lo hi) x
  lip : ∀ x ∈ Icc lo hi, ∀ y ∈ Icc lo hi, |en' x - en' y| ≤ Λ * |x - y|

/-- The Lorentz factors of a record are closer than `e` to the values `G` at the time `t`, the densities closer than `e'`
to the values `M`. -/
def CloseTo2 (g0 : List ℝ) (G M : ℝ → ℝ → ℝ) (t e e' : ℝ) (r : Result ℝ) : Prop :=
  r.gamma.length = g0.length ∧ r.density.length = g0.length ∧ ∀ j, j < g0.length →
    |r.gamma.getD j 0 - G (g0.getD j 0) t| ≤ e ∧ |r.density.getD j 0 - M (g0.getD j 0) t| ≤ e'

/-- second derivative of a solution -/
theorem second_derivative {en en' g : ℝ → ℝ} {lo hi Λ mec2 T : ℝ} (hm : 0 < mec2) (hΛ : 0 ≤ Λ)
    (h : SmoothEnergy en en' lo hi Λ) (hg : ∀ t ∈ Icc 0 T, HasDerivWithinAt g (en (g t) / mec2) (Icc 0 T) t)
    (hin : ∀ t ∈ Icc 0 T, g t ∈ Icc lo hi) {A D : ℝ} (hA0 : 0 ≤ A) (hD0 : 0 ≤ D)
    (hA : ∀ x ∈ Icc lo hi, |en x / mec2| ≤ A) (hD : ∀ x ∈ Icc lo hi, |en' x| ≤ D)
    (hl : ∀ x ∈ Icc lo hi, ∀ y ∈ Icc lo hi, |en x / mec2 - en y / mec2| ≤ A * |x - y|) :
    (∀ t ∈ Icc 0 T, HasDerivWithinAt (fun t => en (g t) / mec2) (en' (g t) / mec2 * (en (g t) / mec2)) (Icc 0 T) t) ∧
    ∀ t ∈ Icc 0 T, ∀ u ∈ Icc 0 T, |en' (g u) / mec2 * (en (g u) / mec2) - en' (g t) / mec2 * (en (g t) / mec2)|
      ≤ (Λ * A ^ 2 / mec2 + D * A ^ 2 / mec2) * |u - t| := by
  constructor
  · intro t ht
    have h1 := (h.deriv _ (hin t ht)).comp t (hg t ht) hin
    have h2 := h1.div_const mec2
    refine h2.congr_deriv ?_
    ring
  · intro t ht u hu
    have h1 := lip_of_deriv hg (fun t ht => hA _ (hin t ht)) ht hu
    have h2 := h.lip _ (hin u hu) _ (hin t ht)
    have h3 := hl _ (hin u hu) _ (hin t ht)
    have e : en' (g u) / mec2 * (en (g u) / mec2) - en' (g t) / mec2 * (en (g t) / mec2)
        = (en' (g u) - en' (g t)) / mec2 * (en (g u) / mec2)
          + en' (g t) / mec2 * (en (g u) / mec2 - en (g t) / mec2) := by ring
    rw [e]
    refine (abs_add_le _ _).trans ?_
    rw [abs_mul, abs_mul, abs_div (en' (g u) - en' (g t)), abs_div (en' (g t)), abs_of_pos hm]
    have a1 := hA _ (hin u hu)
    have a2 := hD _ (hin t ht)
    calc _ ≤ Λ * (A * |u - t|) / mec2 * A + D / mec2 * (A * (A * |u - t|)) := by
          have b1 : |en' (g u) - en' (g t)| ≤ Λ * (A * |u - t|) := h2.trans (by gcongr)
          have b2 : |en (g u) / mec2 - en (g t) / mec2| ≤ A * (A * |u - t|) := h3.trans (by gcongr)
          gcongr
      _ = _ := by ring

set_option maxHeartbeats 1600000 in
/-- **C82**: For rate functions of the Lorentz factor as in C80, and an energy change with a Lipschitz derivative, all runs
with `method="heun"` and small enough fixed steps return, and at every callback and at the end their Lorentz factors differ
from the solutions at the elapsed time by at most a constant times the square of the step, their densities by at most a
constant times the step. -/
theorem C82_second_order {mec2 T lo hi Λ : ℝ} {enL relL absL : List (String × (ℝ → ℝ))} {en' : ℝ → ℝ} {g0 : List ℝ}
    {dist : Dist ℝ} {thr : Option ℝ} {G M : ℝ → ℝ → ℝ} (hm : 0 < mec2) (hT : 0 ≤ T) (hlo : 0 < lo)
    (hL : LipschitzRates (rateSum enL) (rateSum relL) (rateSum absL) lo hi Λ)
    (hS : SmoothEnergy (rateSum enL) en' lo hi Λ)
    (hsol : ∀ x ∈ g0, KineticSolution mec2 (rateSum enL) (rateSum relL) (rateSum absL) T x (dist.eval x) (G x) (M x))
    (hin : ∀ x ∈ g0, ∀ t ∈ Icc 0 T, G x t ∈ Ioo lo hi)
    (hsep : ∀ δ, thr = some δ → ∀ t ∈ Icc 0 T, ∀ j, j + 1 < g0.length →
      δ < Real.logb 10 (G (g0.getD (j + 1) 0) t) - Real.logb 10 (G (g0.getD j 0) t))
    (hpos : ∀ x ∈ g0, 0 ≤ dist.eval x) (htwo : 2 ≤ (g0.filter fun x => decide (0 < dist.eval x)).length) :
    ∃ C dt0, 0 < dt0 ∧ ∀ dt, 0 < dt → dt ≤ dt0 → ∀ cfg : Cfg ℝ, HeunRates cfg enL relL absL dt →
      (∀ x, 0 < x → cfg.num.log10 x = Real.logb 10 x) → cfg.mec2 = mec2 → cfg.totalTime = T →
      cfg.initialGamma = g0 → cfg.mergeCloser = thr →
      (∃ r d, Returns cfg dist r d) ∧
      (∀ r d, Returns cfg dist r d → CloseTo2 g0 G M T (C * dt ^ 2) (C * dt) r) ∧
      ∀ k c, KthCallback cfg dist k c → CloseTo2 g0 G M (min (k * dt) T) (C * dt ^ 2) (C * dt) c := by
  have hlen : 2 ≤ g0.length := htwo.trans (List.length_filter_le _ _)
  obtain ⟨x0, hx0⟩ : ∃ x, x ∈ g0 := List.exists_mem_of_length_pos (by omega)
  have h0T : (0 : ℝ) ∈ Icc 0 T := ⟨le_rfl, hT⟩
  have hlh : lo < hi := (hin x0 hx0 0 h0T).1.trans (hin x0 hx0 0 h0T).2
  have hGc : ∀ x ∈ g0, ContinuousOn (G x) (Icc 0 T) := fun x hx t ht => ((hsol x hx).gamma t ht).continuousWithinAt
  have hMc : ∀ x ∈ g0, ContinuousOn (M x) (Icc 0 T) := fun x hx t ht => ((hsol x hx).density t ht).continuousWithinAt
  obtain ⟨η1, hη1, hm1⟩ := exists_margin hT g0 (fun x t => G x t - lo) (fun x hx => (hGc x hx).sub continuousOn_const)
    (fun x hx t ht => sub_pos.2 (hin x hx t ht).1)
  obtain ⟨η2, hη2, hm2⟩ := exists_margin hT g0 (fun x t => hi - G x t) (fun x hx => continuousOn_const.sub (hGc x hx))
    (fun x hx t ht => sub_pos.2 (hin x hx t ht).2)
  -- `2η` is the distance to the ends of the interval
  obtain ⟨η, hη, hη2in⟩ : ∃ η > 0, ∀ x ∈ g0, ∀ t ∈ Icc 0 T, G x t ∈ Icc (lo + 2 * η) (hi - 2 * η) := by
    refine ⟨min η1 η2 / 2, by have := lt_min hη1 hη2; linarith, fun x hx t ht => ⟨?_, ?_⟩⟩
    · have := hm1 x hx t ht; have := min_le_left η1 η2; linarith
    · have := hm2 x hx t ht; have := min_le_right η1 η2; linarith
  have hGin : ∀ x ∈ g0, ∀ t ∈ Icc 0 T, G x t ∈ Icc lo hi := fun x hx t ht => Ioo_subset_Icc_self (hin x hx t ht)
  obtain ⟨lo', hlo'⟩ : ∃ l, l = lo + η := ⟨_, rfl⟩
  obtain ⟨hi', hhi'⟩ : ∃ l, l = hi - η := ⟨_, rfl⟩
  have hl0 : 0 < lo' := by linarith
  have hηin : ∀ x ∈ g0, ∀ t ∈ Icc 0 T, G x t ∈ Icc (lo' + η) (hi' - η) := fun x hx t ht =>
    ⟨by linarith [(hη2in x hx t ht).1], by linarith [(hη2in x hx t ht).2]⟩
  have hGin' : ∀ x ∈ g0, ∀ t ∈ Icc 0 T, G x t ∈ Icc lo' hi' := fun x hx t ht =>
    ⟨by linarith [(hηin x hx t ht).1], by linarith [(hηin x hx t ht).2]⟩
  have hlh' : lo' ≤ hi' := (hGin' x0 hx0 0 h0T).1.trans (hGin' x0 hx0 0 h0T).2
  have hsub : ∀ x ∈ Icc lo' hi', x ∈ Icc lo hi := fun x hx => ⟨by linarith [hx.1], by linarith [hx.2]⟩
  obtain ⟨σ, hσ, hσsep⟩ : ∃ σ > 0, ∀ δ, thr = some δ → ∀ t ∈ Icc 0 T, ∀ j, j + 1 < g0.length →
      δ + σ ≤ Real.logb 10 (G (g0.getD (j + 1) 0) t) - Real.logb 10 (G (g0.getD j 0) t) := by
    cases hthr : thr with
    | none => exact ⟨1, one_pos, by simp⟩
    | some δ =>
      have hlogc : ∀ x ∈ g0, ContinuousOn (fun t => Real.logb 10 (G x t)) (Icc 0 T) := fun x hx =>
        (hGc x hx).logb (fun t ht => ne_of_gt (hlo.trans_le (hGin x hx t ht).1))
      obtain ⟨σ, hσ, h⟩ := exists_margin hT (List.range (g0.length - 1))
        (fun j t => Real.logb 10 (G (g0.getD (j + 1) 0) t) - Real.logb 10 (G (g0.getD j 0) t) - δ)
        (fun j hj => by
          have hj' := List.mem_range.1 hj
          exact ((hlogc _ (getD_mem (by omega))).sub (hlogc _ (getD_mem (by omega)))).sub continuousOn_const)
        (fun j hj t ht => by
          have hj' := List.mem_range.1 hj
          have := hsep δ hthr t ht j (by omega)
          linarith)
      refine ⟨σ, hσ, ?_⟩
      intro δ' hδ t ht j hj
      obtain rfl : δ = δ' := by simpa using hδ
      have := h j (List.mem_range.2 (by omega)) t ht
      linarith
  have hΛ : 0 ≤ Λ := by
    have h1 := hS.lip lo ⟨le_rfl, hlh.le⟩ hi ⟨hlh.le, le_rfl⟩
    have h2 : 0 < |lo - hi| := abs_pos.2 (by linarith)
    exact nonneg_of_mul_nonneg_left ((abs_nonneg _).trans h1) h2
  set en := rateSum enL with hen
  set rel := rateSum relL with hrel
  set abs' := rateSum absL with habs
  -- bounds on the whole interval
  obtain ⟨A, hA1, hA, hAl⟩ : ∃ A, 1 ≤ A ∧ (∀ x ∈ Icc lo (hi * (1 + 1 / 10000)), |en x / mec2| ≤ A) ∧
      ∀ x ∈ Icc lo hi, ∀ y ∈ Icc lo hi, |en x / mec2 - en y / mec2| ≤ A * |x - y| := by
    have hlk : lo ≤ hi * (1 + 1 / 10000) := by linarith
    refine ⟨max 1 (max ((|en lo| + Λ * (hi * (1 + 1 / 10000) - lo)) / mec2) (Λ / mec2)), le_max_left _ _, ?_, ?_⟩
    · intro x hx
      have h1 := hL.energy x hx lo ⟨le_rfl, hlk⟩
      have h2 : |x - lo| ≤ hi * (1 + 1 / 10000) - lo := by
        rw [abs_of_nonneg (by linarith [hx.1])]; linarith [hx.2]
      have h3 : |en x| ≤ |en lo| + |en x - en lo| := by
        calc |en x| = |en lo + (en x - en lo)| := by ring_nf
          _ ≤ _ := abs_add_le _ _
      have h4 := mul_le_mul_of_nonneg_left h2 hΛ
      rw [abs_div, abs_of_pos hm]
      refine le_trans ?_ ((le_max_left _ _).trans (le_max_right _ _))
      gcongr
      linarith
    · intro x hx y hy
      have hk : ∀ x ∈ Icc lo hi, x ∈ Icc lo (hi * (1 + 1 / 10000)) := fun x hx => ⟨hx.1, by linarith [hx.1, hx.2]⟩
      have h1 := hL.energy x (hk x hx) y (hk y hy)
      rw [← sub_div, abs_div, abs_of_pos hm]
      calc |en x - en y| / mec2 ≤ Λ * |x - y| / mec2 := by gcongr
        _ = Λ / mec2 * |x - y| := by ring
        _ ≤ _ := by
          gcongr
          exact (le_max_right _ _).trans (le_max_right _ _)
  have hA0 : 0 ≤ A := by linarith
  have hAi : ∀ x ∈ Icc lo hi, |en x / mec2| ≤ A := fun x hx => hA x ⟨hx.1, by linarith [hx.1, hx.2]⟩
  obtain ⟨D, hD0, hD⟩ : ∃ D, 0 ≤ D ∧ ∀ x ∈ Icc lo hi, |en' x| ≤ D := by
    refine ⟨|en' lo| + Λ * (hi - lo), by have : 0 ≤ hi - lo := by linarith
                                         positivity, ?_⟩
    intro x hx
    have h1 := hS.lip x hx lo ⟨le_rfl, hlh.le⟩
    have h2 : |x - lo| ≤ hi - lo := by rw [abs_of_nonneg (by linarith [hx.1])]; linarith [hx.2]
    calc |en' x| = |en' lo + (en' x - en' lo)| := by ring_nf
      _ ≤ |en' lo| + |en' x - en' lo| := abs_add_le _ _
      _ ≤ _ := by have := mul_le_mul_of_nonneg_left h2 hΛ; linarith
  obtain ⟨B, hB⟩ := exists_bound g0 M hMc
  obtain ⟨K, hBK, hKt⟩ := lipschitz_tame (Λ := 2 * Λ) hl0 hlh' hm
    (max B (max (mec2 * A) (max |rel lo'| |abs' lo'|)))
  have hBK' : B ≤ K := (le_max_left _ _).trans hBK
  have henlo : |en lo'| ≤ mec2 * A := by
    have := hAi lo' (hsub lo' ⟨le_rfl, hlh'⟩)
    rw [abs_div, abs_of_pos hm, div_le_iff₀ hm] at this
    linarith
  have hL' : LipschitzRates en rel abs' lo' hi' (2 * Λ) := by
    refine ⟨fun x hx y hy => ?_, fun x hx y hy => ?_, fun x hx y hy => ?_, fun x hx => hL.inj x (hsub x hx)⟩
    · have := hL.energy x ⟨by linarith [hx.1], by linarith [hx.2]⟩ y ⟨by linarith [hy.1], by linarith [hy.2]⟩
      have : 0 ≤ Λ * |x - y| := by positivity
      linarith
    · have := hL.escape x (hsub x hx) y (hsub y hy)
      have : 0 ≤ Λ * |x - y| := by positivity
      linarith
    · have := hL.source x (hsub x hx) y (hsub y hy)
      have : 0 ≤ Λ * |x - y| := by positivity
      linarith
  have hK : Tame mec2 en rel abs' lo' hi' K := hKt en rel abs' hL'
    (henlo.trans (by simp)) (by simp) (by simp)
  have hK1 := hK.one
  obtain ⟨c, hc0, hcd⟩ : ∃ c, 0 ≤ c ∧ c = (Λ * A ^ 2 / mec2 + D * A ^ 2 / mec2) + A ^ 3 :=
    ⟨_, by positivity, rfl⟩
  obtain ⟨C1, hC1', hC1⟩ : ∃ C1, 0 ≤ C1 ∧ C1 = c * T * Real.exp (K * T) := ⟨_, by positivity, rfl⟩
  obtain ⟨C0, hC0⟩ : ∃ C0, C0 = max C1 (20000 * Λ * A / lo' / mec2) := ⟨_, rfl⟩
  have hC0' : 0 ≤ C0 := by rw [hC0]; exact hC1'.trans (le_max_left _ _)
  obtain ⟨C2, hC2', hC2⟩ : ∃ C2, 0 ≤ C2 ∧ C2 = (3 * K ^ 2 * (2 * C0) + 13 * K ^ 3) * T * Real.exp (3 * K * T) :=
    ⟨_, by positivity, rfl⟩
  refine ⟨max C1 C2, min 1 (min (1 / (4 * K)) (min (η / (C1 + 1)) (min (σ * lo' / (2 * C1 + 1)) (min (η / A)
    (mec2 / (Λ + 1)))))), by positivity, ?_⟩
  intro dt hp hdt cfg hcfg hlog hmec hTc hgc hthr
  obtain ⟨d0, d1, d2, d3, d4, d5⟩ : dt ≤ 1 ∧ dt ≤ 1 / (4 * K) ∧ dt ≤ η / (C1 + 1) ∧ dt ≤ σ * lo' / (2 * C1 + 1) ∧
      dt ≤ η / A ∧ dt ≤ mec2 / (Λ + 1) := by
    simpa only [le_min_iff] using hdt
  have hKdt : K * dt ≤ 1 / 4 := by
    rw [le_div_iff₀ (by positivity)] at d1
    linarith
  have hC1dt : C1 * dt ^ 2 ≤ C1 * dt := by
    have : dt ^ 2 ≤ dt := by nlinarith
    gcongr
  have hηdt : c * dt * dt * T * Real.exp (K * T) ≤ η := by
    rw [le_div_iff₀ (by positivity)] at d2
    have e : c * dt * dt * T * Real.exp (K * T) = C1 * dt ^ 2 := by rw [hC1]; ring
    rw [e]
    linarith
  have hσdt : 2 * (C1 * dt ^ 2 / lo') ≤ σ := by
    rw [le_div_iff₀ (by positivity)] at d3
    rw [← mul_div_assoc, div_le_iff₀ hl0]
    linarith
  have hAdt : dt * A ≤ η := by rwa [le_div_iff₀ (by positivity)] at d4
  have hΛdt : dt * Λ ≤ mec2 := by
    rw [le_div_iff₀ (by positivity)] at d5
    linarith
  -- the rates of the corrector
  have hmean : ∀ s, 0 < s → s ≤ dt → LipschitzRates (meanRate mec2 en s) rel abs' lo' hi' (2 * Λ) ∧
      ∀ x ∈ Icc lo' (hi' * (1 + 1 / 10000)), x + en x * s / mec2 ∈ Icc lo (hi * (1 + 1 / 10000)) ∧
      |meanRate mec2 en s x| ≤ mec2 * A ∧ |meanRate mec2 en s x - en x| ≤ Λ * A * s := by
    intro s hs hsd
    have hsA : s * A ≤ η := (mul_le_mul_of_nonneg_right hsd hA0).trans hAdt
    exact meanRate_lipschitz hm hΛ hL (by linarith) (by linarith) hA hs (by linarith) (by linarith)
      ((mul_le_mul_of_nonneg_right hsd hΛ).trans hΛdt)
  have hin1 : ∀ x ∈ Icc lo' hi', x ∈ Icc lo' (hi' * (1 + 1 / 10000)) := fun x hx =>
    ⟨hx.1, by linarith [hx.1, hx.2]⟩
  have hin2 : ∀ x ∈ Icc lo' hi', x * (1 + 1 / 10000) ∈ Icc lo' (hi' * (1 + 1 / 10000)) := fun x hx =>
    ⟨by linarith [hx.1], by linarith [hx.2]⟩
  have hφ : ∀ s, 0 < s → s ≤ dt → Tame mec2 (meanRate mec2 en s) rel abs' lo' hi' K := by
    intro s hs hsd
    obtain ⟨q1, q2⟩ := hmean s hs hsd
    exact hKt _ rel abs' q1 ((q2 lo' (hin1 lo' ⟨le_rfl, hlh'⟩)).2.1.trans (by simp)) (by simp) (by simp)
  have hcons : ∀ s, 0 < s → s ≤ dt → ∀ x ∈ Icc lo' hi',
      |spread (meanRate mec2 en s) x / mec2 - spread en x / mec2| ≤ K * (C0 * dt) := by
    intro s hs hsd x hx
    have q2 := (hmean s hs hsd).2
    have b1 := (q2 _ (hin1 x hx)).2.2
    have b2 := (q2 _ (hin2 x hx)).2.2
    have hx0 : 0 < x := hl0.trans_le hx.1
    have e : spread (meanRate mec2 en s) x / mec2 - spread en x / mec2
        = ((meanRate mec2 en s (x * (1 + 1 / 10000)) - en (x * (1 + 1 / 10000))) - (meanRate mec2 en s x - en x))
          * (10000 / (x * mec2)) := by
      unfold spread
      field_simp
      ring
    rw [e, abs_mul, abs_of_pos (by positivity : 0 < 10000 / (x * mec2))]
    have b3 := (abs_sub _ _).trans (add_le_add b2 b1)
    have hx1 := hx.1
    calc _ ≤ (Λ * A * s + Λ * A * s) * (10000 / (lo' * mec2)) := by gcongr
      _ = 20000 * Λ * A / lo' / mec2 * s := by field_simp; ring
      _ ≤ C0 * dt := by
          gcongr
          rw [hC0]; exact le_max_right _ _
      _ = 1 * (C0 * dt) := (one_mul _).symm
      _ ≤ _ := by gcongr
  have hloc : ∀ x ∈ g0, ∀ t s, 0 ≤ t → 0 < s → s ≤ dt → t + s ≤ T →
      |G x (t + s) - G x t - s * (meanRate mec2 en s (G x t) / mec2)| ≤ c * s ^ 3 := by
    intro x hx t s ht hs hsd hts
    have ht' : t ∈ Icc 0 T := ⟨ht, by linarith⟩
    obtain ⟨q1, q2⟩ := second_derivative hm hΛ hS (hsol x hx).gamma (hGin x hx) hA0 hD0 hAi hD hAl
    have hsA : s * A ≤ η := (mul_le_mul_of_nonneg_right hsd hA0).trans hAdt
    have h1 := heun_local (f := fun y => en y / mec2) (K := A) (lo := lo) (hi := hi) (hsol x hx).gamma q1 q2
      (by positivity) hA0 hAi hAl (hGin x hx) ht hs.le hts (by
        have h2 := abs_le.1 (hAi _ (hGin x hx t ht'))
        have h3 := hη2in x hx t ht'
        have c1 : s * -A ≤ s * (en (G x t) / mec2) := mul_le_mul_of_nonneg_left h2.1 hs.le
        have c2 : s * (en (G x t) / mec2) ≤ s * A := mul_le_mul_of_nonneg_left h2.2 hs.le
        exact ⟨by linarith [h3.1], by linarith [h3.2]⟩)
    rw [hcd]
    have e : meanRate mec2 en s (G x t) / mec2
        = (en (G x t) / mec2 + en (G x t + s * (en (G x t) / mec2)) / mec2) / 2 := by
      unfold meanRate
      rw [show en (G x t) * s / mec2 = s * (en (G x t) / mec2) by ring]
      ring
    rw [e]
    exact h1
  set F : ℝ → ℝ × ℝ → ℝ × ℝ := fun s => eulerBin mec2 (meanRate mec2 en s) rel abs' s with hF
  have hFh : heunBin mec2 en rel abs' = F := by
    funext s
    rw [heunBin_eq]
  have hgam : ∀ k : ℕ, (∀ i, i < k → (i : ℝ) * dt < T) → ∀ x ∈ g0,
      |(binSeq F dt T (x, dist.eval x) k).1 - G x (min (k * dt) T)| ≤ C1 * dt ^ 2
        ∧ (binSeq F dt T (x, dist.eval x) k).1 ∈ Icc lo' hi' := fun k hk x hx => by
    rw [hC1]
    exact gamma_error_order hm hl0 hc0 hφ hK1 hT hp (p := (x, dist.eval x)) (hsol x hx).gamma0 hη.le
      (hηin x hx) (hloc x hx) hηdt k hk
  have hden : ∀ k : ℕ, (∀ i, i < k → (i : ℝ) * dt < T) → ∀ x ∈ g0,
      |(binSeq F dt T (x, dist.eval x) k).2 - M x (min (k * dt) T)| ≤ C2 * dt := fun k hk x hx => by
    rw [hC2]
    exact density_error_order hm hl0 hK hφ hcons hT hp (p := (x, dist.eval x)) (g := G x) (hsol x hx).density0
      (hsol x hx).gamma
      (fun t ht => by
        refine ((hsol x hx).density t ht).congr_deriv ?_
        unfold spread
        ring)
      (hGin' x hx) (fun t ht => (hB x hx t ht).trans hBK') hC0' hKdt k hk
      (fun i hi => by
        obtain ⟨q1, q2⟩ := hgam i (fun j hj => hk j (by omega)) x hx
        refine ⟨(q1.trans hC1dt).trans ?_, q2⟩
        rw [hC0]
        gcongr
        exact le_max_left _ _)
  have hKs : ∀ k : ℕ, K * stepLen dt T k ≤ 1 / 4 := fun k =>
    (mul_le_mul_of_nonneg_left (stepLen_le dt T k) (by linarith)).trans hKdt
  have hinj : ∀ x ∈ Icc lo' hi', 0 ≤ abs' x := fun x hx => hL.inj x (hsub x hx)
  have hgood : ∀ k : ℕ, (k : ℝ) * dt < T → _ := fun k hk =>
    good_step hm hl0 (hφ (stepLen dt T k) (stepLen_pos hp hk) (stepLen_le dt T k)) hinj (stepLen_pos hp hk) (hKs k)
  have hsign : ∀ k : ℕ, (∀ i, i < k → (i : ℝ) * dt < T) → ∀ x ∈ g0,
      0 ≤ (binSeq F dt T (x, dist.eval x) k).2 ∧ (0 < dist.eval x → 0 < (binSeq F dt T (x, dist.eval x) k).2) := by
    intro k hk x hx
    induction k with
    | zero => exact ⟨hpos x hx, id⟩
    | succ k ih =>
      have hk' : ∀ i, i < k → (i : ℝ) * dt < T := fun i hi => hk i (by omega)
      obtain ⟨i1, i2⟩ := ih hk'
      have := (hgood k (hk k (by omega))).1 _ (hgam k hk' x hx).2
      exact ⟨this.2.1 i1, fun h => this.2.2 (i2 h)⟩
  have hsorted : g0.Pairwise (· < ·) := hgc ▸ hcfg.wf.gammaSorted
  have hord : ∀ k : ℕ, (∀ i, i < k → (i : ℝ) * dt < T) →
      g0.Pairwise fun x y => (binSeq F dt T (x, dist.eval x) k).1 < (binSeq F dt T (y, dist.eval y) k).1 := by
    intro k hk
    induction k with
    | zero => exact hsorted
    | succ k ih =>
      have hk' : ∀ i, i < k → (i : ℝ) * dt < T := fun i hi => hk i (by omega)
      refine (ih hk').imp_of_mem ?_
      intro x y hx hy hxy
      exact (hgood k (hk k (by omega))).2 _ _ (hgam k hk' x hx).2 (hgam k hk' y hy).2 hxy
  have hprev : ∀ k : ℕ, (k : ℝ) * dt < T → ∀ i, i < k → (i : ℝ) * dt < T := by
    intro k hk i hi
    have : (i : ℝ) < k := by exact_mod_cast hi
    nlinarith
  have hnext : ∀ k : ℕ, (k : ℝ) * dt < T → ∀ i, i < k + 1 → (i : ℝ) * dt < T := by
    intro k hk i hi
    have : (i : ℝ) ≤ k := by exact_mod_cast Nat.lt_succ_iff.1 hi
    nlinarith
  have htm : ∀ k : ℕ, min ((k : ℝ) * dt) T ∈ Icc 0 T := fun k => ⟨le_min (by positivity) hT, min_le_right _ _⟩
  have hstart : startPairs cfg dist = g0.map fun x => (x, dist.eval x) := by unfold startPairs; rw [hgc]
  have hrun : ∀ k, eulerRun F dt T (startPairs cfg dist) k = g0.map fun x => binSeq F dt T (x, dist.eval x) k := by
    intro k
    rw [eulerRun_binSeq, hstart, List.map_map]
    rfl
  have main := C81_heun_run hcfg hp (by rw [hgc]; exact hlen) (dist := dist) rfl (by
    intro k hk
    rw [hTc] at hk ⊢
    rw [hmec, ← hen, ← hrel, ← habs, hFh, hrun]
    have hs := stepLen_pos hp hk
    have hsd := stepLen_le dt T k
    have hQ : ∀ x ∈ g0, (binSeq F dt T (x, dist.eval x) k).1 ∈ Icc lo' hi' := fun x hx =>
      (hgam k (hprev k hk) x hx).2
    have hp1 : ∀ x ∈ g0, 0 < (binSeq F dt T (x, dist.eval x) (k + 1)).1 := fun x hx =>
      hl0.trans_le (hgam (k + 1) (hnext k hk) x hx).2.1
    constructor
    · refine smooth_of (cfg := { cfg with mergeCloser := none }) (f := dist.eval) (by rw [hmec]; exact hm) hl0
        (by rw [hmec]; exact hK) hinj hs (hKs k) hlog hQ (hord k (hprev k hk))
        (fun x hx => (hsign k (hprev k hk) x hx).1) (fun x hx => (hsign k (hprev k hk) x hx).2) htwo ?_ ?_
      · intro x hx
        show 0 < (binSeq F dt T (x, dist.eval x) k).1 + en (binSeq F dt T (x, dist.eval x) k).1 * stepLen dt T k / cfg.mec2
        rw [hmec]
        exact hlo.trans_le ((hmean _ hs hsd).2 _ (hin1 _ (hQ x hx))).1.1
      · intro δ hδ
        simp at hδ
    · refine smooth_of (f := dist.eval) (by rw [hmec]; exact hm) hl0
        (by rw [hmec]; exact hφ _ hs hsd) hinj hs (hKs k) hlog hQ (hord k (hprev k hk))
        (fun x hx => (hsign k (hprev k hk) x hx).1) (fun x hx => (hsign k (hprev k hk) x hx).2) htwo ?_ ?_
      · intro x hx
        rw [hmec]
        exact hp1 x hx
      · intro δ hδ j hj
        have hx : g0.getD j 0 ∈ g0 := getD_mem (by omega)
        have hy : g0.getD (j + 1) 0 ∈ g0 := getD_mem (by omega)
        rw [hmec]
        show δ ≤ Real.logb 10 (binSeq F dt T (g0.getD (j + 1) 0, dist.eval (g0.getD (j + 1) 0)) (k + 1)).1
          - Real.logb 10 (binSeq F dt T (g0.getD j 0, dist.eval (g0.getD j 0)) (k + 1)).1
        have e1 := hgam (k + 1) (hnext k hk) _ hx
        have e2 := hgam (k + 1) (hnext k hk) _ hy
        have ht := htm (k + 1)
        have s1 := hσsep δ (hthr ▸ hδ) _ ht j hj
        have l1 := logb_close hl0 e1.2.1 (hGin' _ hx _ ht).1
        have l2 := logb_close hl0 e2.2.1 (hGin' _ hy _ ht).1
        have q1 : |(binSeq F dt T (g0.getD j 0, dist.eval (g0.getD j 0)) (k + 1)).1
            - G (g0.getD j 0) (min (((k + 1 : ℕ) : ℝ) * dt) T)| / lo' ≤ C1 * dt ^ 2 / lo' := by
          have := e1.1; gcongr
        have q2 : |(binSeq F dt T (g0.getD (j + 1) 0, dist.eval (g0.getD (j + 1) 0)) (k + 1)).1
            - G (g0.getD (j + 1) 0) (min (((k + 1 : ℕ) : ℝ) * dt) T)| / lo' ≤ C1 * dt ^ 2 / lo' := by
          have := e2.1; gcongr
        have r1 := (abs_le.1 (l1.trans q1)).2
        have r2 := (abs_le.1 (l2.trans q2)).1
        linarith)
  rw [hmec, hTc, ← hen, ← hrel, ← habs, hFh] at main
  obtain ⟨m1, m2, m3⟩ := main
  have hN : ∀ k, k ≤ ⌈T / dt⌉₊ → ∀ i, i < k → (i : ℝ) * dt < T := by
    intro k hkN i hi
    have : (i : ℝ) < T / dt := Nat.lt_ceil.1 (lt_of_lt_of_le hi hkN)
    rwa [lt_div_iff₀ hp] at this
  have hclose : ∀ k, k ≤ ⌈T / dt⌉₊ → ∀ r : Result ℝ,
      r.gamma = (eulerRun F dt T (startPairs cfg dist) k).map Prod.fst →
      r.density = (eulerRun F dt T (startPairs cfg dist) k).map Prod.snd →
      CloseTo2 g0 G M (min (k * dt) T) (max C1 C2 * dt ^ 2) (max C1 C2 * dt) r := by
    intro k hk r e1 e2
    rw [hrun, List.map_map] at e1 e2
    refine ⟨by rw [e1, List.length_map], by rw [e2, List.length_map], ?_⟩
    intro j hj
    rw [e1, e2, getD_map' _ 0 0 hj, getD_map' _ 0 0 hj]
    have hx : g0.getD j 0 ∈ g0 := getD_mem hj
    exact ⟨(hgam k (hN k hk) _ hx).1.trans (by gcongr; exact le_max_left _ _),
      (hden k (hN k hk) _ hx).trans (by gcongr; exact le_max_right _ _)⟩
  refine ⟨m1, ?_, ?_⟩
  · intro r d hr
    obtain ⟨e1, e2, -⟩ := m2 r d hr
    have := hclose _ le_rfl r e1 e2
    have hle : T ≤ (⌈T / dt⌉₊ : ℝ) * dt := by
      rw [← div_le_iff₀ hp]; exact Nat.le_ceil _
    rwa [min_eq_right hle] at this
  · intro k c hcb
    obtain ⟨-, hkN⟩ := C02_callback_times hcfg.fixed hp hcb
    rw [hTc] at hkN
    have hk0 : 0 < k := by obtain ⟨s, -, h0, -⟩ := hcb; exact h0
    obtain ⟨e1, e2⟩ := (m3 k hk0 hkN).2 c hcb
    exact hclose k hkN c e1 e2

/-! ### Acceleration and synchrotron cooling -/

/-- **C82** for acceleration with the rate `aγ` and losses with the rate `bγ²` -/
theorem C82_logistic {mec2 T a b : ℝ} {enL : List (String × (ℝ → ℝ))} {g0 : List ℝ} {dist : Dist ℝ} (hm : 0 < mec2)
    (hT : 0 ≤ T) (hb : 0 ≤ b) (hen : ∀ g, rateSum enL g = mec2 * (a * g - b * g ^ 2))
    {w : ℝ → ℝ} (hw0 : w 0 = 0) (hw : ∀ t, 0 ≤ t → 0 ≤ w t) (hwd : ∀ t, HasDerivAt w (Real.exp (a * t)) t)
    (hg : ∀ x ∈ g0, 0 < x) (hpos : ∀ x ∈ g0, 0 ≤ dist.eval x)
    (htwo : 2 ≤ (g0.filter fun x => decide (0 < dist.eval x)).length) :
    ∃ C dt0, 0 < dt0 ∧ ∀ dt, 0 < dt → dt ≤ dt0 → ∀ cfg : Cfg ℝ, HeunRates cfg enL [] [] dt →
      (∀ x, 0 < x → cfg.num.log10 x = Real.logb 10 x) → cfg.mec2 = mec2 → cfg.totalTime = T →
      cfg.initialGamma = g0 → cfg.mergeCloser = none →
      (∃ r d, Returns cfg dist r d) ∧ ∀ r d, Returns cfg dist r d → CloseTo2 g0
        (fun x t => x * Real.exp (a * t) / (1 + b * x * w t))
        (fun x t => dist.eval x * ((1 + b * x * w t) ^ (2.0001 : ℝ) / Real.exp (a * t))) T (C * dt ^ 2) (C * dt) r := by
  have hz : rateSum ([] : List (String × (ℝ → ℝ))) = fun _ => 0 := by funext g; simp [rateSum]
  set G : ℝ → ℝ → ℝ := fun x t => x * Real.exp (a * t) / (1 + b * x * w t) with hG
  have hsol := fun x hx => logistic_solution (T := T) (n := dist.eval x) hm hb (hg x hx) hen hw0 hw hwd
  have hGc : ∀ x ∈ g0, ContinuousOn (G x) (Icc 0 T) := fun x hx t ht =>
    ((hsol x hx).gamma t ht).continuousWithinAt
  have hGp : ∀ x ∈ g0, ∀ t ∈ Icc 0 T, 0 < G x t := fun x hx t ht => by
    have := hw t ht.1
    have := hg x hx
    rw [hG]
    positivity
  obtain ⟨σ, hσ, h1⟩ := exists_margin hT g0 G hGc hGp
  obtain ⟨U, h2⟩ := exists_bound g0 G hGc
  obtain ⟨x0, hx0⟩ : ∃ x, x ∈ g0 :=
    List.exists_mem_of_length_pos (by have := htwo.trans (List.length_filter_le _ _); omega)
  have hU : 0 ≤ U := (abs_nonneg _).trans (h2 x0 hx0 0 ⟨le_rfl, hT⟩)
  obtain ⟨C, dt0, hd, h⟩ := C82_second_order (enL := enL) (relL := []) (absL := []) (thr := none) (G := G)
    (en' := fun g => mec2 * (a - b * (2 * g)))
    (M := fun x t => dist.eval x * ((1 + b * x * w t) ^ (2.0001 : ℝ) / Real.exp (a * t)))
    (lo := σ / 2) (hi := U + 1) (Λ := mec2 * (|a| + b * (2 * ((U + 1) * (1 + 1 / 10000))))) hm hT (by positivity) (by
      rw [hz]
      refine ⟨?_, by intros; simp; positivity, by intros; simp; positivity, fun _ _ => le_rfl⟩
      intro x hx y hy
      rw [hen, hen]
      have hx0 : 0 < x := by linarith [hx.1]
      have hy0 : 0 < y := by linarith [hy.1]
      have e : mec2 * (a * x - b * x ^ 2) - mec2 * (a * y - b * y ^ 2)
          = mec2 * ((a - b * (x + y)) * (x - y)) := by ring
      rw [e, abs_mul, abs_of_pos hm, abs_mul, ← mul_assoc]
      refine mul_le_mul_of_nonneg_right ?_ (abs_nonneg _)
      refine mul_le_mul_of_nonneg_left ?_ hm.le
      refine (abs_sub _ _).trans ?_
      rw [abs_of_nonneg (by positivity : 0 ≤ b * (x + y))]
      have : x + y ≤ 2 * ((U + 1) * (1 + 1 / 10000)) := by linarith [hx.2, hy.2]
      gcongr)
    (by
      constructor
      · intro x hx
        have e : rateSum enL = fun g => mec2 * (a * g - b * g ^ 2) := funext hen
        rw [e]
        have d1 := ((hasDerivAt_id' x).const_mul a).sub (((hasDerivAt_id' x).pow 2).const_mul b)
        refine ((d1.const_mul mec2).congr_deriv ?_).hasDerivWithinAt
        simp
      · intro x hx y hy
        have e : mec2 * (a - b * (2 * x)) - mec2 * (a - b * (2 * y)) = -(mec2 * (b * 2) * (x - y)) := by ring
        rw [e, abs_neg, abs_mul, abs_of_nonneg (by positivity)]
        refine mul_le_mul_of_nonneg_right ?_ (abs_nonneg _)
        refine mul_le_mul_of_nonneg_left ?_ hm.le
        have : b * 2 ≤ b * (2 * ((U + 1) * (1 + 1 / 10000))) := by
          refine mul_le_mul_of_nonneg_left ?_ hb
          linarith
        linarith [abs_nonneg a])
    (by rw [hz]; exact hsol)
    (fun x hx t ht => ⟨by linarith [h1 x hx t ht], by
      have := (le_abs_self _).trans (h2 x hx t ht)
      linarith⟩)
    (by simp) hpos htwo
  exact ⟨C, dt0, hd, fun dt hp hdt cfg c1 c2 c3 c4 c5 c6 =>
    ⟨(h dt hp hdt cfg c1 c2 c3 c4 c5 c6).1, (h dt hp hdt cfg c1 c2 c3 c4 c5 c6).2.1⟩⟩

/-- a blob with Fermi acceleration and synchrotron losses, evolved with `method="heun"` -/
structure AcceleratedHeun (k : Consts) (cfg : Cfg ℝ) (acc syn : String) (t_acc B dt : ℝ) : Prop where
  wf : cfg.WF
  num : cfg.num = realNumerics
  mec2 : cfg.mec2 = k.mec2
  en : cfg.enFns = [(acc, fermiAcceleration k t_acc), (syn, synchrotronLoss k B)]
  rel : cfg.relFns = []
  abs : cfg.absFns = []
  fixed : cfg.stepDuration = .fixed dt
  heun : cfg.heun = true
  noGroups : cfg.subgroups = none
  noBounds : cfg.gammaBounds = none
  noMerge : cfg.mergeCloser = none

/-- **C82**, `fermi_acceleration` together with `synchrotron_loss`: the Lorentz factors converge with second order to
`γ₀ e^(t/t_acc) / (1 + b γ₀ t_acc (e^(t/t_acc) - 1))`. -/
theorem C82_fermi_synchrotron {k : Consts} (hk : k.Pos) {acc syn : String} {t_acc B T : ℝ} {g0 : List ℝ} {dist : Dist ℝ}
    (ht : 0 < t_acc) (hT : 0 ≤ T) (hg : ∀ x ∈ g0, 0 < x) (hpos : ∀ x ∈ g0, 0 ≤ dist.eval x)
    (htwo : 2 ≤ (g0.filter fun x => decide (0 < dist.eval x)).length) :
    ∃ C dt0, 0 < dt0 ∧ ∀ dt, 0 < dt → dt ≤ dt0 → ∀ cfg : Cfg ℝ, AcceleratedHeun k cfg acc syn t_acc B dt →
      cfg.totalTime = T → cfg.initialGamma = g0 →
      (∃ r d, Returns cfg dist r d) ∧ ∀ r d, Returns cfg dist r d → CloseTo2 g0
        (fun x t => x * Real.exp (t / t_acc) / (1 + coolingRate k B * x * (t_acc * (Real.exp (t / t_acc) - 1))))
        (fun x t => dist.eval x * ((1 + coolingRate k B * x * (t_acc * (Real.exp (t / t_acc) - 1))) ^ (2.0001 : ℝ)
          / Real.exp (t / t_acc))) T (C * dt ^ 2) (C * dt) r := by
  have hm := mec2_pos hk
  have hb := coolingRate_nonneg hk B
  obtain ⟨C, dt0, hd, h⟩ := C82_logistic (mec2 := k.mec2) (T := T) (a := 1 / t_acc) (b := coolingRate k B)
    (enL := [(acc, fun g => 1 / t_acc * (g * k.mec2)), (syn, fun g => -(coolingRate k B * k.mec2 * g ^ 2))])
    (g0 := g0) (dist := dist) hm hT hb (by intro g; simp [rateSum]; ring)
    (w := fun t => t_acc * (Real.exp (1 / t_acc * t) - 1)) (by simp)
    (fun t h0 => mul_nonneg ht.le (sub_nonneg.2 (Real.one_le_exp (by positivity))))
    (fun t => by
      have := ((((hasDerivAt_id t).const_mul (1 / t_acc)).exp).sub_const 1).const_mul t_acc
      refine this.congr_deriv ?_
      simp only [id]
      field_simp)
    hg hpos htwo
  refine ⟨C, dt0, hd, fun dt hp hdt cfg hc c4 c5 => ?_⟩
  have := h dt hp hdt cfg ⟨hc.wf, (by
    rw [hc.en]
    simp only [List.map_cons, List.map_nil, List.cons.injEq, Prod.mk.injEq, true_and, and_true]
    constructor
    · funext d p
      unfold fermiAcceleration
      apply List.map_congr_left
      intro g _
      ring
    · funext d p
      unfold synchrotronLoss
      apply List.map_congr_left
      intro g _
      unfold Synchrotron.energyLossRate coolingRate
      field_simp), hc.rel, hc.abs, hc.fixed, hc.heun, hc.noGroups, hc.noBounds⟩
    (fun x _ => by rw [hc.num]; rfl) hc.mec2 c4 c5 hc.noMerge
  simp only [one_div_mul_eq_div] at this
  exact this

/-- acceleration and cooling of a power law on two bins: all hypotheses can be met, for every step small enough there is
a run, and its Lorentz factors are within `C dt²` of the logistic curve -/
example {k : Consts} (hk : k.Pos) : ∃ C dt0, 0 < dt0 ∧ ∀ dt, 0 < dt → dt ≤ dt0 → ∃ r d,
    Returns { physCfg k (fermiAcceleration k 7) dt 3 with
      enFns := [("acc", fermiAcceleration k 7), ("syn", synchrotronLoss k 1)], heun := true } physDist r d ∧
    |r.gamma.getD 1 0 - 100 * Real.exp (3 / 7) / (1 + coolingRate k 1 * 100 * (7 * (Real.exp (3 / 7) - 1)))|
      ≤ C * dt ^ 2 := by
  obtain ⟨C, dt0, hd, h⟩ := C82_fermi_synchrotron hk (acc := "acc") (syn := "syn") (t_acc := 7) (B := 1) (T := 3)
    (g0 := [10, 100]) (dist := physDist) (by norm_num) (by norm_num) (by simp) (by simp [physDist])
    (by simp [physDist])
  refine ⟨C, dt0, hd, fun dt hp hdt => ?_⟩
  have hw := physCfg_wf hk (fermiAcceleration k 7) dt 3
  obtain ⟨⟨r, d, hr⟩, h2⟩ := h dt hp hdt { physCfg k (fermiAcceleration k 7) dt 3 with
      enFns := [("acc", fermiAcceleration k 7), ("syn", synchrotronLoss k 1)], heun := true }
    ⟨{ hw with keysEn := by simp }, rfl, rfl, rfl, rfl, rfl, rfl, rfl, rfl, rfl, rfl⟩ rfl rfl
  exact ⟨r, d, hr, ((h2 r d hr).2.2 1 (by simp)).1⟩

end Verif.TE
