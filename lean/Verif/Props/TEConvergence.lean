import Mathlib.Analysis.SpecialFunctions.Pow.Deriv
import Mathlib.Topology.Order.Compact
import Verif.Lemmas.EulerError
import Verif.Props.TEPhysics

/-
C80: refining the time step, the evolution converges with first order to the solution of the kinetic equations.
-/

namespace Verif.TE

open Verif.Np Set

/-- Rate functions (sums over all processes) that are Lipschitz between two Lorentz factors; injection is not negative.
The code reads the energy change also at the upper edge of a bin, 1/10000 above. -/
structure LipschitzRates (en rel abs : ℝ → ℝ) (lo hi Λ : ℝ) : Prop where
  energy : ∀ x ∈ Icc lo (hi * (1 + 1 / 10000)), ∀ y ∈ Icc lo (hi * (1 + 1 / 10000)), |en x - en y| ≤ Λ * |x - y|
  escape : ∀ x ∈ Icc lo hi, ∀ y ∈ Icc lo hi, |rel x - rel y| ≤ Λ * |x - y|
  source : ∀ x ∈ Icc lo hi, ∀ y ∈ Icc lo hi, |abs x - abs y| ≤ Λ * |x - y|
  inj : ∀ x ∈ Icc lo hi, 0 ≤ abs x

/-- The kinetic equations along the path of a particle: `dγ/dt = en/mec2` and
`dn/dt = -n (d/dγ)(en/mec2) + n rel + abs`, where the derivative is the difference quotient over the width of a bin. -/
structure KineticSolution (mec2 : ℝ) (en rel abs : ℝ → ℝ) (T x n : ℝ) (g m : ℝ → ℝ) : Prop where
  gamma0 : g 0 = x
  density0 : m 0 = n
  gamma : ∀ t ∈ Icc 0 T, HasDerivWithinAt g (en (g t) / mec2) (Icc 0 T) t
  density : ∀ t ∈ Icc 0 T, HasDerivWithinAt m
    (-(m t * ((en (g t * (1 + 1 / 10000)) - en (g t)) / (g t / 10000)) / mec2) + m t * rel (g t) + abs (g t)) (Icc 0 T) t

/-- The bins of a record are closer than `e` to the values `G` and `M` at the time `t`. -/
def CloseTo (g0 : List ℝ) (G M : ℝ → ℝ → ℝ) (t e : ℝ) (r : Result ℝ) : Prop :=
  r.gamma.length = g0.length ∧ r.density.length = g0.length ∧ ∀ j, j < g0.length →
    |r.gamma.getD j 0 - G (g0.getD j 0) t| ≤ e ∧ |r.density.getD j 0 - M (g0.getD j 0) t| ≤ e

theorem exists_margin {ι : Type} {T : ℝ} (hT : 0 ≤ T) (l : List ι) (F : ι → ℝ → ℝ)
    (hc : ∀ i ∈ l, ContinuousOn (F i) (Icc 0 T)) (hp : ∀ i ∈ l, ∀ t ∈ Icc 0 T, 0 < F i t) :
    ∃ σ > 0, ∀ i ∈ l, ∀ t ∈ Icc 0 T, σ ≤ F i t := by
  induction l with
  | nil => exact ⟨1, one_pos, by simp⟩
  | cons i l ih =>
    obtain ⟨σ, hσ, h⟩ := ih (fun j hj => hc j (List.mem_cons_of_mem _ hj)) (fun j hj => hp j (List.mem_cons_of_mem _ hj))
    obtain ⟨t0, ht0, hmin⟩ := isCompact_Icc.exists_isMinOn (nonempty_Icc.2 hT) (hc i (by simp))
    refine ⟨min σ (F i t0), lt_min hσ (hp i (by simp) t0 ht0), ?_⟩
    intro j hj t ht
    rcases List.mem_cons.1 hj with rfl | hj
    · exact (min_le_right _ _).trans (hmin ht)
    · exact (min_le_left _ _).trans (h j hj t ht)

theorem exists_bound {ι : Type} {T : ℝ} (l : List ι) (F : ι → ℝ → ℝ)
    (hc : ∀ i ∈ l, ContinuousOn (F i) (Icc 0 T)) : ∃ K, ∀ i ∈ l, ∀ t ∈ Icc 0 T, |F i t| ≤ K := by
  induction l with
  | nil => exact ⟨0, by simp⟩
  | cons i l ih =>
    obtain ⟨K, h⟩ := ih (fun j hj => hc j (List.mem_cons_of_mem _ hj))
    obtain ⟨K', hK'⟩ := isCompact_Icc.exists_bound_of_continuousOn (hc i (by simp))
    refine ⟨max K K', ?_⟩
    intro j hj t ht
    rcases List.mem_cons.1 hj with rfl | hj
    · exact (hK' t ht).trans (le_max_right _ _)
    · exact (h j hj t ht).trans (le_max_left _ _)

/-- Lipschitz rates are tame, with the same constant for all rates with the same bounds -/
theorem lipschitz_tame {lo hi Λ mec2 : ℝ} (hlo : 0 < lo) (hlh : lo ≤ hi) (hm : 0 < mec2) (B : ℝ) :
    ∃ K, B ≤ K ∧ ∀ en rel abs : ℝ → ℝ, LipschitzRates en rel abs lo hi Λ → |en lo| ≤ B → |rel lo| ≤ B → |abs lo| ≤ B →
      Tame mec2 en rel abs lo hi K := by
  refine ⟨max B (max 1 (max ((B + Λ * (hi - lo)) / mec2) (max (Λ / mec2) (max (B + Λ * (hi - lo))
    (max (30000 * Λ / lo / mec2) Λ))))), le_max_left _ _, ?_⟩
  intro en rel abs h hBe hBr hBa
  have hΛ : 0 ≤ Λ := by
    have h1 := h.energy lo ⟨le_rfl, by nlinarith⟩ (hi * (1 + 1 / 10000)) ⟨by nlinarith, le_rfl⟩
    have h2 : 0 < |lo - hi * (1 + 1 / 10000)| := abs_pos.2 (by nlinarith)
    exact nonneg_of_mul_nonneg_left ((abs_nonneg _).trans h1) h2
  have hsub : ∀ x ∈ Icc lo hi, x ∈ Icc lo (hi * (1 + 1 / 10000)) := fun x hx => ⟨hx.1, by nlinarith [hx.2]⟩
  have hup : ∀ x ∈ Icc lo hi, x * (1 + 1 / 10000) ∈ Icc lo (hi * (1 + 1 / 10000)) := fun x hx =>
    ⟨by nlinarith [hx.1], by nlinarith [hx.2]⟩
  have hbd : ∀ (f : ℝ → ℝ), (∀ x ∈ Icc lo hi, ∀ y ∈ Icc lo hi, |f x - f y| ≤ Λ * |x - y|) → ∀ x ∈ Icc lo hi,
      |f x| ≤ |f lo| + Λ * (hi - lo) := by
    intro f hf x hx
    have h1 := hf x hx lo ⟨le_rfl, hlh⟩
    have h2 : |x - lo| ≤ hi - lo := by rw [abs_of_nonneg (by linarith [hx.1])]; linarith [hx.2]
    calc |f x| = |f lo + (f x - f lo)| := by ring_nf
      _ ≤ |f lo| + |f x - f lo| := abs_add_le _ _
      _ ≤ _ := by have := mul_le_mul_of_nonneg_left h2 hΛ; linarith
  have hen : ∀ x ∈ Icc lo hi, ∀ y ∈ Icc lo hi, |en x - en y| ≤ Λ * |x - y| := fun x hx y hy =>
    h.energy x (hsub x hx) y (hsub y hy)
  have hA : ∀ x ∈ Icc lo hi, |en (x * (1 + 1 / 10000)) - en x| ≤ Λ * (x / 10000) := by
    intro x hx
    have := h.energy _ (hup x hx) x (hsub x hx)
    rwa [show x * (1 + 1 / 10000) - x = x / 10000 by ring, abs_of_pos (by linarith [hx.1] : 0 < x / 10000)] at this
  have hsb : ∀ x ∈ Icc lo hi, |spread en x / mec2| ≤ Λ / mec2 := by
    intro x hx
    have hx0 : 0 < x / 10000 := by linarith [hx.1]
    unfold spread
    rw [abs_div, abs_of_pos hm, abs_div, abs_of_pos hx0]
    gcongr
    rw [div_le_iff₀ hx0]
    exact hA x hx
  have hsl : ∀ x ∈ Icc lo hi, ∀ y ∈ Icc lo hi,
      |spread en x / mec2 - spread en y / mec2| ≤ 30000 * Λ / lo / mec2 * |x - y| := by
    intro x hx y hy
    have hx0 : 0 < x := by linarith [hx.1]
    have hy0 : 0 < y := by linarith [hy.1]
    have b1 := h.energy _ (hup x hx) _ (hup y hy)
    have b2 := hen y hy x hx
    have b3 := hA y hy
    have hd := abs_nonneg (x - y)
    rw [show x * (1 + 1 / 10000) - y * (1 + 1 / 10000) = (x - y) * (1 + 1 / 10000) by ring, abs_mul,
      abs_of_pos (by norm_num : (0 : ℝ) < 1 + 1 / 10000)] at b1
    rw [abs_sub_comm y x] at b2
    have e : spread en x / mec2 - spread en y / mec2
        = (((en (x * (1 + 1 / 10000)) - en (y * (1 + 1 / 10000))) + (en y - en x))
          + (en (y * (1 + 1 / 10000)) - en y) * ((y - x) / y)) * (10000 / (x * mec2)) := by
      unfold spread
      field_simp
      ring
    have c1 : |(en (x * (1 + 1 / 10000)) - en (y * (1 + 1 / 10000))) + (en y - en x)
          + (en (y * (1 + 1 / 10000)) - en y) * ((y - x) / y)| ≤ 3 * Λ * |x - y| := by
      refine (abs_add_le _ _).trans ?_
      have c2 : |(en (y * (1 + 1 / 10000)) - en y) * ((y - x) / y)| ≤ Λ * |x - y| / 10000 := by
        rw [abs_mul, abs_div, abs_of_pos hy0, abs_sub_comm y x]
        calc _ ≤ Λ * (y / 10000) * (|x - y| / y) := by gcongr
          _ = _ := by field_simp
      have c3 := abs_add_le (en (x * (1 + 1 / 10000)) - en (y * (1 + 1 / 10000))) (en y - en x)
      have : 0 ≤ Λ * |x - y| := by positivity
      nlinarith
    rw [e, abs_mul, abs_of_pos (by positivity : 0 < 10000 / (x * mec2))]
    calc _ ≤ 3 * Λ * |x - y| * (10000 / (lo * mec2)) := by
          have := hx.1
          gcongr
      _ = _ := by field_simp; ring
  generalize hKd : max B (max 1 (max ((B + Λ * (hi - lo)) / mec2) (max (Λ / mec2) (max (B + Λ * (hi - lo))
    (max (30000 * Λ / lo / mec2) Λ))))) = K
  have k1 := hKd.le
  simp only [max_le_iff] at k1
  obtain ⟨-, k1, k2, k3, k4, k6, k7⟩ := k1
  exact {
    one := k1
    en_bd := fun x hx => by
      rw [abs_div, abs_of_pos hm]
      refine le_trans ?_ k2
      have := (hbd en hen x hx).trans (add_le_add hBe le_rfl)
      gcongr
    sp_bd := fun x hx => (hsb x hx).trans k3
    rel_bd := fun x hx => ((hbd rel h.escape x hx).trans (add_le_add hBr le_rfl)).trans k4
    abs_bd := fun x hx => ((hbd abs h.source x hx).trans (add_le_add hBa le_rfl)).trans k4
    en_lip := fun x hx y hy => by
      rw [← sub_div, abs_div, abs_of_pos hm, div_le_iff₀ hm]
      have h1 : Λ ≤ K * mec2 := by rwa [div_le_iff₀ hm] at k3
      calc _ ≤ Λ * |x - y| := hen x hx y hy
        _ ≤ K * mec2 * |x - y| := by gcongr
        _ = _ := by ring
    sp_lip := fun x hx y hy => (hsl x hx y hy).trans (by gcongr)
    rel_lip := fun x hx y hy => (h.escape x hx y hy).trans (by gcongr)
    abs_lip := fun x hx y hy => (h.source x hx y hy).trans (by gcongr) }

/-- Lipschitz rates are tame -/
theorem LipschitzRates.tame {en rel abs : ℝ → ℝ} {lo hi Λ mec2 : ℝ} (h : LipschitzRates en rel abs lo hi Λ)
    (hlo : 0 < lo) (hlh : lo ≤ hi) (hm : 0 < mec2) (B : ℝ) :
    ∃ K, B ≤ K ∧ Tame mec2 en rel abs lo hi K := by
  obtain ⟨K, h1, h2⟩ := lipschitz_tame (Λ := Λ) hlo hlh hm (max B (max |en lo| (max |rel lo| |abs lo|)))
  exact ⟨K, (le_max_left _ _).trans h1, h2 en rel abs h (by simp) (by simp) (by simp)⟩

/-- distances of logarithms -/
theorem logb_close {x y lo : ℝ} (hlo : 0 < lo) (hx : lo ≤ x) (hy : lo ≤ y) :
    |Real.logb 10 x - Real.logb 10 y| ≤ |x - y| / lo := by
  have key : ∀ a b : ℝ, lo ≤ a → a ≤ b → Real.logb 10 b - Real.logb 10 a ≤ (b - a) / lo := by
    intro a b ha hab
    have ha0 : 0 < a := hlo.trans_le ha
    have hb0 : 0 < b := ha0.trans_le hab
    have h1 : Real.log (b / a) ≤ b / a - 1 := Real.log_le_sub_one_of_pos (by positivity)
    have h2 : (1 : ℝ) ≤ Real.log 10 := by
      rw [Real.le_log_iff_exp_le (by norm_num)]
      linarith [Real.exp_one_lt_d9]
    have h3 : 0 ≤ Real.log (b / a) := Real.log_nonneg (by rw [le_div_iff₀ ha0]; linarith)
    rw [← Real.logb_div hb0.ne' ha0.ne', Real.logb]
    calc Real.log (b / a) / Real.log 10 ≤ Real.log (b / a) := div_le_self h3 h2
      _ ≤ b / a - 1 := h1
      _ = (b - a) / a := by field_simp
      _ ≤ (b - a) / lo := by
          have : 0 ≤ b - a := by linarith
          gcongr
  rcases le_total x y with h | h
  · rw [abs_sub_comm, abs_sub_comm x y, abs_of_nonneg (sub_nonneg.2 h), abs_of_nonneg]
    · exact key x y hx h
    · exact sub_nonneg.2 (Real.logb_le_logb_of_le (by norm_num) (hlo.trans_le hx) h)
  · rw [abs_of_nonneg (sub_nonneg.2 h), abs_of_nonneg]
    · exact key y x hy h
    · exact sub_nonneg.2 (Real.logb_le_logb_of_le (by norm_num) (hlo.trans_le hy) h)

/-- one step keeps densities non-negative, and positive ones positive -/
theorem density_sign {K s n r D a : ℝ} (hs : 0 < s) (hKs : K * s ≤ 1 / 4) (hr : |r| ≤ K) (hD : |D| ≤ K) (ha : 0 ≤ a) :
    (0 ≤ n → 0 ≤ n / (1 + D * s) + (n * r + a) * s) ∧ (0 < n → 0 < n / (1 + D * s) + (n * r + a) * s) := by
  have h1 : |D * s| ≤ 1 / 4 := by
    rw [abs_mul, abs_of_pos hs]
    exact (mul_le_mul_of_nonneg_right hD hs.le).trans hKs
  have h2 : |r * s| ≤ 1 / 4 := by
    rw [abs_mul, abs_of_pos hs]
    exact (mul_le_mul_of_nonneg_right hr hs.le).trans hKs
  have h3 := abs_le.1 h1
  have h4 := abs_le.1 h2
  have h5 : 4 / 5 ≤ 1 / (1 + D * s) := by
    rw [le_div_iff₀ (by linarith)]
    linarith
  have e : n / (1 + D * s) + (n * r + a) * s = n * (1 / (1 + D * s) + r * s) + a * s := by ring
  have h6 : 0 < 1 / (1 + D * s) + r * s := by linarith
  rw [e]
  constructor
  · intro hn; positivity
  · intro hn; positivity

/-- **C80**: For rate functions of the Lorentz factor that are Lipschitz along the solutions of the kinetic equations,
all runs with small enough fixed steps return, and their bins, at every callback and at the end, differ from the
solutions at the elapsed time by at most a constant times the step: the method is of first order. -/
theorem C80_first_order {mec2 T lo hi Λ : ℝ} {enL relL absL : List (String × (ℝ → ℝ))} {g0 : List ℝ} {dist : Dist ℝ}
    {thr : Option ℝ} {G M : ℝ → ℝ → ℝ} (hm : 0 < mec2) (hT : 0 ≤ T) (hlo : 0 < lo)
    (hL : LipschitzRates (rateSum enL) (rateSum relL) (rateSum absL) lo hi Λ)
    (hsol : ∀ x ∈ g0, KineticSolution mec2 (rateSum enL) (rateSum relL) (rateSum absL) T x (dist.eval x) (G x) (M x))
    (hin : ∀ x ∈ g0, ∀ t ∈ Icc 0 T, G x t ∈ Ioo lo hi)
    (hsep : ∀ δ, thr = some δ → ∀ t ∈ Icc 0 T, ∀ j, j + 1 < g0.length →
      δ < Real.logb 10 (G (g0.getD (j + 1) 0) t) - Real.logb 10 (G (g0.getD j 0) t))
    (hpos : ∀ x ∈ g0, 0 ≤ dist.eval x) (htwo : 2 ≤ (g0.filter fun x => decide (0 < dist.eval x)).length) :
    ∃ C dt0, 0 < dt0 ∧ ∀ dt, 0 < dt → dt ≤ dt0 → ∀ cfg : Cfg ℝ, LocalRates cfg enL relL absL dt →
      (∀ x, 0 < x → cfg.num.log10 x = Real.logb 10 x) → cfg.mec2 = mec2 → cfg.totalTime = T →
      cfg.initialGamma = g0 → cfg.mergeCloser = thr →
      (∃ r d, Returns cfg dist r d) ∧
      (∀ r d, Returns cfg dist r d → CloseTo g0 G M T (C * dt) r) ∧
      ∀ k c, KthCallback cfg dist k c → CloseTo g0 G M (min (k * dt) T) (C * dt) c := by
  have hlen : 2 ≤ g0.length := htwo.trans (List.length_filter_le _ _)
  obtain ⟨x0, hx0⟩ : ∃ x, x ∈ g0 := List.exists_mem_of_length_pos (by omega)
  have h0T : (0 : ℝ) ∈ Icc 0 T := ⟨le_rfl, hT⟩
  have hlh : lo ≤ hi := ((hin x0 hx0 0 h0T).1.trans (hin x0 hx0 0 h0T).2).le
  have hGc : ∀ x ∈ g0, ContinuousOn (G x) (Icc 0 T) := fun x hx t ht => ((hsol x hx).gamma t ht).continuousWithinAt
  have hMc : ∀ x ∈ g0, ContinuousOn (M x) (Icc 0 T) := fun x hx t ht => ((hsol x hx).density t ht).continuousWithinAt
  obtain ⟨η1, hη1, hm1⟩ := exists_margin hT g0 (fun x t => G x t - lo) (fun x hx => (hGc x hx).sub continuousOn_const)
    (fun x hx t ht => sub_pos.2 (hin x hx t ht).1)
  obtain ⟨η2, hη2, hm2⟩ := exists_margin hT g0 (fun x t => hi - G x t) (fun x hx => continuousOn_const.sub (hGc x hx))
    (fun x hx t ht => sub_pos.2 (hin x hx t ht).2)
  obtain ⟨η, hη, hηin⟩ : ∃ η > 0, ∀ x ∈ g0, ∀ t ∈ Icc 0 T, G x t ∈ Icc (lo + η) (hi - η) := by
    refine ⟨min η1 η2, lt_min hη1 hη2, fun x hx t ht => ⟨?_, ?_⟩⟩
    · have := hm1 x hx t ht; have := min_le_left η1 η2; linarith
    · have := hm2 x hx t ht; have := min_le_right η1 η2; linarith
  have hGin : ∀ x ∈ g0, ∀ t ∈ Icc 0 T, G x t ∈ Icc lo hi := fun x hx t ht => Ioo_subset_Icc_self (hin x hx t ht)
  obtain ⟨σ, hσ, hσsep⟩ : ∃ σ > 0, ∀ δ, thr = some δ → ∀ t ∈ Icc 0 T, ∀ j, j + 1 < g0.length →
      δ + σ ≤ Real.logb 10 (G (g0.getD (j + 1) 0) t) - Real.logb 10 (G (g0.getD j 0) t) := by
    cases hthr : thr with
    | none => exact ⟨1, one_pos, by simp⟩
    | some δ =>
      have hlogc : ∀ x ∈ g0, ContinuousOn (fun t => Real.logb 10 (G x t)) (Icc 0 T) := fun x hx =>
        (hGc x hx).logb (fun t ht => ne_of_gt (hlo.trans_le (hGin x hx t ht).1))
      obtain ⟨σ, hσ, h⟩ := exists_margin hT (List.range (g0.length - 1))
        (fun j t => Real.logb 10 (G (g0.getD (j + 1) 0) t) - Real.logb 10 (G (g0.getD j 0) t) - δ)
        (fun j hj => by
          have hj' := List.mem_range.1 hj
          exact ((hlogc _ (getD_mem (by omega))).sub (hlogc _ (getD_mem (by omega)))).sub continuousOn_const)
        (fun j hj t ht => by
          have hj' := List.mem_range.1 hj
          have := hsep δ hthr t ht j (by omega)
          linarith)
      refine ⟨σ, hσ, ?_⟩
      intro δ' hδ t ht j hj
      obtain rfl : δ = δ' := by simpa using hδ
      have := h j (List.mem_range.2 (by omega)) t ht
      linarith
  obtain ⟨B, hB⟩ := exists_bound g0 M hMc
  obtain ⟨K, hBK, hK⟩ := hL.tame hlo hlh hm B
  have hK1 := hK.one
  have hexp : (0 : ℝ) < Real.exp (K * T) := Real.exp_pos _
  set C1 := K ^ 2 * T * Real.exp (K * T) with hC1
  have hC1' : 0 ≤ C1 := by positivity
  set C2 := (3 * K ^ 2 * C1 + 13 * K ^ 3) * T * Real.exp (3 * K * T) with hC2
  have hC2' : 0 ≤ C2 := by positivity
  refine ⟨max C1 C2, min (1 / (4 * K)) (min (η / (C1 + 1)) (σ * lo / (2 * C1 + 1))), by positivity, ?_⟩
  intro dt hp hdt cfg hcfg hlog hmec hTc hgc hthr
  obtain ⟨d1, d2, d3⟩ : dt ≤ 1 / (4 * K) ∧ dt ≤ η / (C1 + 1) ∧ dt ≤ σ * lo / (2 * C1 + 1) := by
    simp only [le_min_iff] at hdt
    exact ⟨hdt.1, hdt.2.1, hdt.2.2⟩
  have hKdt : K * dt ≤ 1 / 4 := by
    rw [le_div_iff₀ (by positivity)] at d1
    linarith
  have hηdt : K ^ 2 * dt * T * Real.exp (K * T) ≤ η := by
    rw [le_div_iff₀ (by positivity)] at d2
    have e : K ^ 2 * dt * T * Real.exp (K * T) = C1 * dt := by rw [hC1]; ring
    rw [e]
    nlinarith
  have hσdt : 2 * (C1 * dt / lo) ≤ σ := by
    rw [le_div_iff₀ (by positivity)] at d3
    rw [← mul_div_assoc, div_le_iff₀ hlo]
    nlinarith
  set F := eulerBin mec2 (rateSum enL) (rateSum relL) (rateSum absL) with hF
  have hgam : ∀ k : ℕ, (∀ i, i < k → (i : ℝ) * dt < T) → ∀ x ∈ g0,
      |(binSeq F dt T (x, dist.eval x) k).1 - G x (min (k * dt) T)| ≤ C1 * dt
        ∧ (binSeq F dt T (x, dist.eval x) k).1 ∈ Icc lo hi := fun k hk x hx =>
    gamma_error hm hlo hη.le hK hT hp (p := (x, dist.eval x)) (hsol x hx).gamma0 (hsol x hx).gamma
      (hηin x hx) hηdt k hk
  have hden : ∀ k : ℕ, (∀ i, i < k → (i : ℝ) * dt < T) → ∀ x ∈ g0,
      |(binSeq F dt T (x, dist.eval x) k).2 - M x (min (k * dt) T)| ≤ C2 * dt := fun k hk x hx =>
    density_error hm hlo hK hT hp (p := (x, dist.eval x)) (g := G x) (hsol x hx).density0 (hsol x hx).gamma
      (fun t ht => by
        refine ((hsol x hx).density t ht).congr_deriv ?_
        unfold spread
        ring)
      (hGin x hx) (fun t ht => (hB x hx t ht).trans hBK) hC1' hKdt k hk
      (fun i hi => hgam i (fun j hj => hk j (by omega)) x hx)
  have hstep : ∀ k : ℕ, (∀ i, i < k → (i : ℝ) * dt < T) → ∀ x ∈ g0, ∀ t,
      (binSeq F dt T (x, dist.eval x) k).1 / 10000 + (rateSum enL ((binSeq F dt T (x, dist.eval x) k).1 * (1 + 1 / 10000))
          - rateSum enL (binSeq F dt T (x, dist.eval x) k).1) * t / mec2
        = (binSeq F dt T (x, dist.eval x) k).1 / 10000
          * (1 + spread (rateSum enL) (binSeq F dt T (x, dist.eval x) k).1 / mec2 * t) ∧
      F t (binSeq F dt T (x, dist.eval x) k) = ((binSeq F dt T (x, dist.eval x) k).1
          + rateSum enL (binSeq F dt T (x, dist.eval x) k).1 / mec2 * t,
        (binSeq F dt T (x, dist.eval x) k).2 / (1 + spread (rateSum enL) (binSeq F dt T (x, dist.eval x) k).1 / mec2 * t)
          + ((binSeq F dt T (x, dist.eval x) k).2 * rateSum relL (binSeq F dt T (x, dist.eval x) k).1
            + rateSum absL (binSeq F dt T (x, dist.eval x) k).1) * t) := fun k hk x hx t =>
    eulerBin_spread hm (hlo.trans_le (hgam k hk x hx).2.1)
  have hKs : ∀ k : ℕ, K * stepLen dt T k ≤ 1 / 4 := fun k =>
    (mul_le_mul_of_nonneg_left (stepLen_le dt T k) (by linarith)).trans hKdt
  have hsign : ∀ k : ℕ, (∀ i, i < k → (i : ℝ) * dt < T) → ∀ x ∈ g0,
      0 ≤ (binSeq F dt T (x, dist.eval x) k).2 ∧ (0 < dist.eval x → 0 < (binSeq F dt T (x, dist.eval x) k).2) := by
    intro k hk x hx
    induction k with
    | zero => exact ⟨hpos x hx, id⟩
    | succ k ih =>
      have hk' : ∀ i, i < k → (i : ℝ) * dt < T := fun i hi => hk i (by omega)
      obtain ⟨i1, i2⟩ := ih hk'
      have hmem := (hgam k hk' x hx).2
      rw [binSeq, (hstep k hk' x hx _).2]
      have := density_sign (n := (binSeq F dt T (x, dist.eval x) k).2) (stepLen_pos hp (hk k (by omega))) (hKs k)
        (hK.rel_bd _ hmem) (hK.sp_bd _ hmem) (hL.inj _ hmem)
      exact ⟨this.1 i1, fun h => this.2 (i2 h)⟩
  have hsorted : g0.Pairwise (· < ·) := hgc ▸ hcfg.wf.gammaSorted
  have hord : ∀ k : ℕ, (∀ i, i < k → (i : ℝ) * dt < T) →
      g0.Pairwise fun x y => (binSeq F dt T (x, dist.eval x) k).1 < (binSeq F dt T (y, dist.eval y) k).1 := by
    intro k hk
    induction k with
    | zero => exact hsorted
    | succ k ih =>
      have hk' : ∀ i, i < k → (i : ℝ) * dt < T := fun i hi => hk i (by omega)
      refine (ih hk').imp_of_mem ?_
      intro x y hx hy hxy
      have m1 := (hgam k hk' x hx).2
      have m2 := (hgam k hk' y hy).2
      rw [binSeq, binSeq, (hstep k hk' x hx _).2, (hstep k hk' y hy _).2]
      have hl := hK.en_lip _ m2 _ m1
      have hs := stepLen_pos hp (hk k (by omega))
      have hks := hKs k
      dsimp only
      generalize (binSeq F dt T (x, dist.eval x) k).1 = a at *
      generalize (binSeq F dt T (y, dist.eval y) k).1 = b at *
      rw [abs_of_pos (sub_pos.2 hxy)] at hl
      have := (abs_le.1 hl).1
      have h3 : -(K * (b - a)) * stepLen dt T k ≤ (rateSum enL b / mec2 - rateSum enL a / mec2) * stepLen dt T k :=
        mul_le_mul_of_nonneg_right this hs.le
      nlinarith [sub_pos.2 hxy]
  have hprev : ∀ k : ℕ, (k : ℝ) * dt < T → ∀ i, i < k → (i : ℝ) * dt < T := by
    intro k hk i hi
    have : (i : ℝ) < k := by exact_mod_cast hi
    nlinarith
  have hnext : ∀ k : ℕ, (k : ℝ) * dt < T → ∀ i, i < k + 1 → (i : ℝ) * dt < T := by
    intro k hk i hi
    have : (i : ℝ) ≤ k := by exact_mod_cast Nat.lt_succ_iff.1 hi
    nlinarith
  have htm : ∀ k : ℕ, min ((k : ℝ) * dt) T ∈ Icc 0 T := fun k => ⟨le_min (by positivity) hT, min_le_right _ _⟩
  have hstart : startPairs cfg dist = g0.map fun x => (x, dist.eval x) := by unfold startPairs; rw [hgc]
  have hrun : ∀ k, eulerRun F dt T (startPairs cfg dist) k = g0.map fun x => binSeq F dt T (x, dist.eval x) k := by
    intro k
    rw [eulerRun_binSeq, hstart, List.map_map]
    rfl
  have main := C70_euler_run hcfg hp (by rw [hgc]; exact hlen) (dist := dist) rfl (by
    intro k hk
    rw [hTc] at hk ⊢
    rw [hmec, ← hF, hrun]
    have hst : ∀ x ∈ g0, eulerBin cfg.mec2 (rateSum enL) (rateSum relL) (rateSum absL) (min dt (T - k * dt))
        (binSeq F dt T (x, dist.eval x) k) = binSeq F dt T (x, dist.eval x) (k + 1) := fun x hx => by
      rw [hmec]; rfl
    have hp1 : ∀ x ∈ g0, 0 < (binSeq F dt T (x, dist.eval x) (k + 1)).1 := fun x hx =>
      hlo.trans_le (hgam (k + 1) (hnext k hk) x hx).2.1
    refine ⟨?_, ?_, ?_, ?_, ?_, ?_⟩
    · simp only [List.mem_map]
      rintro p ⟨x, hx, rfl⟩
      rw [hst x hx]
      exact hp1 x hx
    · simp only [List.mem_map]
      rintro p ⟨x, hx, rfl⟩
      have hmem := (hgam k (hprev k hk) x hx).2
      have h0 := hlo.trans_le hmem.1
      rw [hmec, (hstep k (hprev k hk) x hx _).1]
      have h1 := hK.sp_bd _ hmem
      have hs : 0 < stepLen dt T k := stepLen_pos hp hk
      have h2 : |spread (rateSum enL) (binSeq F dt T (x, dist.eval x) k).1 / mec2 * stepLen dt T k| ≤ 1 / 4 := by
        rw [abs_mul, abs_of_pos hs]
        exact (mul_le_mul_of_nonneg_right h1 hs.le).trans (hKs k)
      have h3 := (abs_le.1 h2).1
      exact mul_pos (by positivity) (by
        show 0 < 1 + spread (rateSum enL) (binSeq F dt T (x, dist.eval x) k).1 / mec2 * stepLen dt T k
        linarith)
    · simp only [List.mem_map]
      rintro p ⟨x, hx, rfl⟩
      rw [hst x hx]
      exact (hsign (k + 1) (hnext k hk) x hx).1
    · rw [List.pairwise_map, List.pairwise_map]
      refine (hord (k + 1) (hnext k hk)).imp_of_mem ?_
      intro x y hx hy hxy
      rw [hst x hx, hst y hy, hlog _ (hp1 x hx), hlog _ (hp1 y hy)]
      exact Real.logb_lt_logb (by norm_num) (hp1 x hx) hxy
    · intro δ hδ j hj
      rw [List.length_map] at hj
      have hx : g0.getD j 0 ∈ g0 := getD_mem (by omega)
      have hy : g0.getD (j + 1) 0 ∈ g0 := getD_mem (by omega)
      rw [getD_map_pair (f := fun x => binSeq F dt T (x, dist.eval x) k) hj,
        getD_map_pair (f := fun x => binSeq F dt T (x, dist.eval x) k) (by omega), hst _ hx, hst _ hy,
        hlog _ (hp1 _ hx), hlog _ (hp1 _ hy)]
      have e1 := hgam (k + 1) (hnext k hk) _ hx
      have e2 := hgam (k + 1) (hnext k hk) _ hy
      have ht := htm (k + 1)
      have s1 := hσsep δ (hthr ▸ hδ) _ ht j hj
      have l1 := logb_close hlo e1.2.1 (hGin _ hx _ ht).1
      have l2 := logb_close hlo e2.2.1 (hGin _ hy _ ht).1
      have q1 : |(binSeq F dt T (g0.getD j 0, dist.eval (g0.getD j 0)) (k + 1)).1
          - G (g0.getD j 0) (min (((k + 1 : ℕ) : ℝ) * dt) T)| / lo ≤ C1 * dt / lo := by
        have := e1.1; gcongr
      have q2 : |(binSeq F dt T (g0.getD (j + 1) 0, dist.eval (g0.getD (j + 1) 0)) (k + 1)).1
          - G (g0.getD (j + 1) 0) (min (((k + 1 : ℕ) : ℝ) * dt) T)| / lo ≤ C1 * dt / lo := by
        have := e2.1; gcongr
      have r1 := (abs_le.1 (l1.trans q1)).2
      have r2 := (abs_le.1 (l2.trans q2)).1
      linarith
    · right
      rw [List.filter_map, List.length_map]
      refine filter_pos_length (f := dist.eval) ?_ htwo
      intro x hx h0
      simp only
      rw [hst x hx]
      exact ne_of_gt ((hsign (k + 1) (hnext k hk) x hx).2 h0))
  rw [hmec, hTc, ← hF] at main
  obtain ⟨m1, m2, m3⟩ := main
  have hN : ∀ k, k ≤ ⌈T / dt⌉₊ → ∀ i, i < k → (i : ℝ) * dt < T := by
    intro k hkN i hi
    have : (i : ℝ) < T / dt := Nat.lt_ceil.1 (lt_of_lt_of_le hi hkN)
    rwa [lt_div_iff₀ hp] at this
  have hclose : ∀ k, k ≤ ⌈T / dt⌉₊ → ∀ r : Result ℝ,
      r.gamma = (eulerRun F dt T (startPairs cfg dist) k).map Prod.fst →
      r.density = (eulerRun F dt T (startPairs cfg dist) k).map Prod.snd →
      CloseTo g0 G M (min (k * dt) T) (max C1 C2 * dt) r := by
    intro k hk r e1 e2
    rw [hrun, List.map_map] at e1 e2
    refine ⟨by rw [e1, List.length_map], by rw [e2, List.length_map], ?_⟩
    intro j hj
    rw [e1, e2, getD_map' _ 0 0 hj, getD_map' _ 0 0 hj]
    have hx : g0.getD j 0 ∈ g0 := getD_mem hj
    exact ⟨(hgam k (hN k hk) _ hx).1.trans (by gcongr; exact le_max_left _ _),
      (hden k (hN k hk) _ hx).trans (by gcongr; exact le_max_right _ _)⟩
  refine ⟨m1, ?_, ?_⟩
  · intro r d hr
    obtain ⟨e1, e2, -⟩ := m2 r d hr
    have := hclose _ le_rfl r e1 e2
    have hle : T ≤ (⌈T / dt⌉₊ : ℝ) * dt := by
      rw [← div_le_iff₀ hp]; exact Nat.le_ceil _
    rwa [min_eq_right hle] at this
  · intro k c hcb
    obtain ⟨-, hkN⟩ := C02_callback_times hcfg.fixed hp hcb
    rw [hTc] at hkN
    have hk0 : 0 < k := by obtain ⟨s, -, h0, -⟩ := hcb; exact h0
    obtain ⟨e1, e2⟩ := (m3 k hk0 hkN).2 c hcb
    exact hclose k hkN c e1 e2

/-! ### Acceleration and synchrotron cooling -/

/-- solution of `dγ/dt = aγ - bγ²`; `w` is the integral of `exp(at)` -/
theorem logistic_solution {mec2 a b T x n : ℝ} (hm : 0 < mec2) (hb : 0 ≤ b) (hx : 0 < x) {en : ℝ → ℝ}
    (hen : ∀ g, en g = mec2 * (a * g - b * g ^ 2)) {w : ℝ → ℝ} (hw0 : w 0 = 0) (hw : ∀ t, 0 ≤ t → 0 ≤ w t)
    (hwd : ∀ t, HasDerivAt w (Real.exp (a * t)) t) :
    KineticSolution mec2 en (fun _ => 0) (fun _ => 0) T x n (fun t => x * Real.exp (a * t) / (1 + b * x * w t))
      (fun t => n * ((1 + b * x * w t) ^ (2.0001 : ℝ) / Real.exp (a * t))) where
  gamma0 := by simp [hw0]
  density0 := by simp [hw0]
  gamma := by
    intro t ht
    have hu : 0 < 1 + b * x * w t := by have := hw t ht.1; positivity
    have he : HasDerivAt (fun t => Real.exp (a * t)) (Real.exp (a * t) * (a * 1)) t :=
      ((hasDerivAt_id t).const_mul a).exp
    have h1 := ((he.const_mul x).div (((hwd t).const_mul (b * x)).const_add 1) hu.ne').hasDerivWithinAt (s := Icc 0 T)
    refine h1.congr_deriv ?_
    rw [hen]
    field_simp
  density := by
    intro t ht
    have hu : 0 < 1 + b * x * w t := by have := hw t ht.1; positivity
    have he : HasDerivAt (fun t => Real.exp (a * t)) (Real.exp (a * t) * (a * 1)) t :=
      ((hasDerivAt_id t).const_mul a).exp
    have hu' : HasDerivAt (fun t => 1 + b * x * w t) (b * x * Real.exp (a * t)) t :=
      ((hwd t).const_mul (b * x)).const_add 1
    have hp := hu'.rpow_const (p := 2.0001) (Or.inl hu.ne')
    have hE := Real.exp_pos (a * t)
    have h1 := ((hp.div he hE.ne').const_mul n).hasDerivWithinAt (s := Icc 0 T)
    refine h1.congr_deriv ?_
    rw [hen, hen]
    have e : (1 + b * x * w t) ^ ((2.0001 : ℝ)) = (1 + b * x * w t) ^ ((2.0001 : ℝ) - 1) * (1 + b * x * w t) := by
      rw [← Real.rpow_add_one hu.ne']
      norm_num
    rw [e]
    generalize (1 + b * x * w t) ^ ((2.0001 : ℝ) - 1) = P
    field_simp
    ring

/-- **C80** for the processes of the package: acceleration with the rate `aγ` and losses with the rate `bγ²` (either may be
absent).  The Lorentz factors converge to the solution of `dγ/dt = aγ - bγ²`, the densities to `n₀ u^2.0001 e^(-at)`,
`u = 1 + b γ₀ ∫exp(at)`; the exact density has the exponent 2. -/
theorem C80_logistic {mec2 T a b : ℝ} {enL : List (String × (ℝ → ℝ))} {g0 : List ℝ} {dist : Dist ℝ} (hm : 0 < mec2)
    (hT : 0 ≤ T) (hb : 0 ≤ b) (hen : ∀ g, rateSum enL g = mec2 * (a * g - b * g ^ 2))
    {w : ℝ → ℝ} (hw0 : w 0 = 0) (hw : ∀ t, 0 ≤ t → 0 ≤ w t) (hwd : ∀ t, HasDerivAt w (Real.exp (a * t)) t)
    (hg : ∀ x ∈ g0, 0 < x) (hpos : ∀ x ∈ g0, 0 ≤ dist.eval x)
    (htwo : 2 ≤ (g0.filter fun x => decide (0 < dist.eval x)).length) :
    ∃ C dt0, 0 < dt0 ∧ ∀ dt, 0 < dt → dt ≤ dt0 → ∀ cfg : Cfg ℝ, LocalRates cfg enL [] [] dt →
      (∀ x, 0 < x → cfg.num.log10 x = Real.logb 10 x) → cfg.mec2 = mec2 → cfg.totalTime = T →
      cfg.initialGamma = g0 → cfg.mergeCloser = none →
      (∃ r d, Returns cfg dist r d) ∧ ∀ r d, Returns cfg dist r d → CloseTo g0
        (fun x t => x * Real.exp (a * t) / (1 + b * x * w t))
        (fun x t => dist.eval x * ((1 + b * x * w t) ^ (2.0001 : ℝ) / Real.exp (a * t))) T (C * dt) r := by
  have hz : rateSum ([] : List (String × (ℝ → ℝ))) = fun _ => 0 := by funext g; simp [rateSum]
  set G : ℝ → ℝ → ℝ := fun x t => x * Real.exp (a * t) / (1 + b * x * w t) with hG
  have hsol := fun x hx => logistic_solution (T := T) (n := dist.eval x) hm hb (hg x hx) hen hw0 hw hwd
  have hGc : ∀ x ∈ g0, ContinuousOn (G x) (Icc 0 T) := fun x hx t ht =>
    ((hsol x hx).gamma t ht).continuousWithinAt
  have hGp : ∀ x ∈ g0, ∀ t ∈ Icc 0 T, 0 < G x t := fun x hx t ht => by
    have := hw t ht.1
    have := hg x hx
    rw [hG]
    positivity
  obtain ⟨σ, hσ, h1⟩ := exists_margin hT g0 G hGc hGp
  obtain ⟨U, h2⟩ := exists_bound g0 G hGc
  obtain ⟨x0, hx0⟩ : ∃ x, x ∈ g0 :=
    List.exists_mem_of_length_pos (by have := htwo.trans (List.length_filter_le _ _); omega)
  have hU : 0 ≤ U := (abs_nonneg _).trans (h2 x0 hx0 0 ⟨le_rfl, hT⟩)
  obtain ⟨C, dt0, hd, h⟩ := C80_first_order (enL := enL) (relL := []) (absL := []) (thr := none) (G := G)
    (M := fun x t => dist.eval x * ((1 + b * x * w t) ^ (2.0001 : ℝ) / Real.exp (a * t)))
    (lo := σ / 2) (hi := U + 1) (Λ := mec2 * (|a| + b * (2 * ((U + 1) * (1 + 1 / 10000))))) hm hT (by positivity) (by
      rw [hz]
      refine ⟨?_, by intros; simp; positivity, by intros; simp; positivity, fun _ _ => le_rfl⟩
      intro x hx y hy
      rw [hen, hen]
      have hx0 : 0 < x := by linarith [hx.1]
      have hy0 : 0 < y := by linarith [hy.1]
      have e : mec2 * (a * x - b * x ^ 2) - mec2 * (a * y - b * y ^ 2)
          = mec2 * ((a - b * (x + y)) * (x - y)) := by ring
      rw [e, abs_mul, abs_of_pos hm, abs_mul, ← mul_assoc]
      refine mul_le_mul_of_nonneg_right ?_ (abs_nonneg _)
      refine mul_le_mul_of_nonneg_left ?_ hm.le
      refine (abs_sub _ _).trans ?_
      rw [abs_of_nonneg (by positivity : 0 ≤ b * (x + y))]
      have : x + y ≤ 2 * ((U + 1) * (1 + 1 / 10000)) := by linarith [hx.2, hy.2]
      gcongr)
    (by rw [hz]; exact hsol)
    (fun x hx t ht => ⟨by linarith [h1 x hx t ht], by
      have := (le_abs_self _).trans (h2 x hx t ht)
      linarith⟩)
    (by simp) hpos htwo
  exact ⟨C, dt0, hd, fun dt hp hdt cfg c1 c2 c3 c4 c5 c6 =>
    ⟨(h dt hp hdt cfg c1 c2 c3 c4 c5 c6).1, (h dt hp hdt cfg c1 c2 c3 c4 c5 c6).2.1⟩⟩

/-- a blob with Fermi acceleration and synchrotron losses -/
structure AcceleratedRun (k : Consts) (cfg : Cfg ℝ) (acc syn : String) (t_acc B dt : ℝ) : Prop where
  wf : cfg.WF
  num : cfg.num = realNumerics
  mec2 : cfg.mec2 = k.mec2
  en : cfg.enFns = [(acc, fermiAcceleration k t_acc), (syn, synchrotronLoss k B)]
  rel : cfg.relFns = []
  abs : cfg.absFns = []
  fixed : cfg.stepDuration = .fixed dt
  euler : cfg.heun = false
  noGroups : cfg.subgroups = none
  noBounds : cfg.gammaBounds = none
  noMerge : cfg.mergeCloser = none

/-- **C80**, `fermi_acceleration` together with `synchrotron_loss`: convergence to
`γ₀ e^(t/t_acc) / (1 + b γ₀ t_acc (e^(t/t_acc) - 1))`, which for long times is the equilibrium `1/(b t_acc)`. -/
theorem C80_fermi_synchrotron {k : Consts} (hk : k.Pos) {acc syn : String} {t_acc B T : ℝ} {g0 : List ℝ} {dist : Dist ℝ}
    (ht : 0 < t_acc) (hT : 0 ≤ T) (hg : ∀ x ∈ g0, 0 < x) (hpos : ∀ x ∈ g0, 0 ≤ dist.eval x)
    (htwo : 2 ≤ (g0.filter fun x => decide (0 < dist.eval x)).length) :
    ∃ C dt0, 0 < dt0 ∧ ∀ dt, 0 < dt → dt ≤ dt0 → ∀ cfg : Cfg ℝ, AcceleratedRun k cfg acc syn t_acc B dt →
      cfg.totalTime = T → cfg.initialGamma = g0 →
      (∃ r d, Returns cfg dist r d) ∧ ∀ r d, Returns cfg dist r d → CloseTo g0
        (fun x t => x * Real.exp (t / t_acc) / (1 + coolingRate k B * x * (t_acc * (Real.exp (t / t_acc) - 1))))
        (fun x t => dist.eval x * ((1 + coolingRate k B * x * (t_acc * (Real.exp (t / t_acc) - 1))) ^ (2.0001 : ℝ)
          / Real.exp (t / t_acc))) T (C * dt) r := by
  have hm := mec2_pos hk
  have hb := coolingRate_nonneg hk B
  obtain ⟨C, dt0, hd, h⟩ := C80_logistic (mec2 := k.mec2) (T := T) (a := 1 / t_acc) (b := coolingRate k B)
    (enL := [(acc, fun g => 1 / t_acc * (g * k.mec2)), (syn, fun g => -(coolingRate k B * k.mec2 * g ^ 2))])
    (g0 := g0) (dist := dist) hm hT hb (by intro g; simp [rateSum]; ring)
    (w := fun t => t_acc * (Real.exp (1 / t_acc * t) - 1)) (by simp)
    (fun t h0 => mul_nonneg ht.le (sub_nonneg.2 (Real.one_le_exp (by positivity))))
    (fun t => by
      have := ((((hasDerivAt_id t).const_mul (1 / t_acc)).exp).sub_const 1).const_mul t_acc
      refine this.congr_deriv ?_
      simp only [id]
      field_simp)
    hg hpos htwo
  refine ⟨C, dt0, hd, fun dt hp hdt cfg hc c4 c5 => ?_⟩
  have := h dt hp hdt cfg ⟨hc.wf, (by
    rw [hc.en]
    simp only [List.map_cons, List.map_nil, List.cons.injEq, Prod.mk.injEq, true_and, and_true]
    constructor
    · funext d p
      unfold fermiAcceleration
      apply List.map_congr_left
      intro g _
      ring
    · funext d p
      unfold synchrotronLoss
      apply List.map_congr_left
      intro g _
      unfold Synchrotron.energyLossRate coolingRate
      field_simp), hc.rel, hc.abs, hc.fixed, hc.euler, hc.noGroups, hc.noBounds⟩
    (fun x _ => by rw [hc.num]; rfl) hc.mec2 c4 c5 hc.noMerge
  simp only [one_div_mul_eq_div] at this
  exact this

/-- **C80**, `synchrotron_loss` alone: the densities converge to `n₀ (1 + bγ₀T)^2.0001` -/
theorem C80_synchrotron {k : Consts} (hk : k.Pos) {name : String} {B T : ℝ} {g0 : List ℝ} {dist : Dist ℝ}
    (hT : 0 ≤ T) (hg : ∀ x ∈ g0, 0 < x) (hpos : ∀ x ∈ g0, 0 ≤ dist.eval x)
    (htwo : 2 ≤ (g0.filter fun x => decide (0 < dist.eval x)).length) :
    ∃ C dt0, 0 < dt0 ∧ ∀ dt, 0 < dt → dt ≤ dt0 → ∀ cfg : Cfg ℝ, SynchRun k cfg B dt dist →
      cfg.totalTime = T → cfg.initialGamma = g0 → cfg.enFns = [(name, synchrotronLoss k B)] →
      (∃ r d, Returns cfg dist r d) ∧ ∀ r d, Returns cfg dist r d → CloseTo g0
        (fun x t => x / (1 + coolingRate k B * x * t))
        (fun x t => dist.eval x * (1 + coolingRate k B * x * t) ^ (2.0001 : ℝ)) T (C * dt) r := by
  have hm := mec2_pos hk
  have hb := coolingRate_nonneg hk B
  obtain ⟨C, dt0, hd, h⟩ := C80_logistic (mec2 := k.mec2) (T := T) (a := 0) (b := coolingRate k B)
    (enL := [(name, fun g => -(coolingRate k B * k.mec2 * g ^ 2))])
    (g0 := g0) (dist := dist) hm hT hb (by intro g; simp [rateSum]; ring)
    (w := fun t => t) rfl (fun t h0 => h0) (fun t => by simpa using hasDerivAt_id' t) hg hpos htwo
  refine ⟨C, dt0, hd, fun dt hp hdt cfg hc c4 c5 hen => ?_⟩
  obtain ⟨name', hl⟩ := hc.localRates
  have e : name' = name := by
    have := hl.en
    rw [hen] at this
    simp only [List.map_cons, List.map_nil, List.cons.injEq, Prod.mk.injEq] at this
    exact this.1.1.symm
  rw [hc.mec2, e] at hl
  have := h dt hp hdt cfg hl (fun x _ => by rw [hc.num]; rfl) hc.mec2 c4 c5 hc.noMerge
  simp only [zero_mul, Real.exp_zero, mul_one, div_one] at this
  exact this

/-- acceleration and cooling of a power law on two bins: all hypotheses can be met, for every step small enough there is
a run, and its bins are within `C dt` of the logistic curve -/
example {k : Consts} (hk : k.Pos) : ∃ C dt0, 0 < dt0 ∧ ∀ dt, 0 < dt → dt ≤ dt0 → ∃ r d,
    Returns { physCfg k (fermiAcceleration k 7) dt 3 with
      enFns := [("acc", fermiAcceleration k 7), ("syn", synchrotronLoss k 1)] } physDist r d ∧
    |r.gamma.getD 1 0 - 100 * Real.exp (3 / 7) / (1 + coolingRate k 1 * 100 * (7 * (Real.exp (3 / 7) - 1)))| ≤ C * dt := by
  obtain ⟨C, dt0, hd, h⟩ := C80_fermi_synchrotron hk (acc := "acc") (syn := "syn") (t_acc := 7) (B := 1) (T := 3)
    (g0 := [10, 100]) (dist := physDist) (by norm_num) (by norm_num) (by simp) (by simp [physDist])
    (by simp [physDist])
  refine ⟨C, dt0, hd, fun dt hp hdt => ?_⟩
  have hw := physCfg_wf hk (fermiAcceleration k 7) dt 3
  obtain ⟨⟨r, d, hr⟩, h2⟩ := h dt hp hdt { physCfg k (fermiAcceleration k 7) dt 3 with
      enFns := [("acc", fermiAcceleration k 7), ("syn", synchrotronLoss k 1)] }
    ⟨{ hw with keysEn := by simp }, rfl, rfl, rfl, rfl, rfl, rfl, rfl, rfl, rfl, rfl⟩ rfl rfl
  exact ⟨r, d, hr, ((h2 r d hr).2.2 1 (by simp)).1⟩

end Verif.TE
