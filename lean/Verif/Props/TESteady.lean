import Verif.Props.TEPhysics

/-
C116: injection against escape approaches its steady state, from one side and at least as fast as the exponential.
-/

namespace Verif.TE

open Filter Topology

/-- a run in which particles are injected at the rate `inj` and escape after the time `esc` on average, both functions
of the Lorentz factor, in steps shorter than the escape times -/
structure EscapeRun (cfg : Cfg ℝ) (inj esc : ℝ → ℝ) (dt : ℝ) (dist : Dist ℝ) : Prop where
  rates : ∃ ni ne, LocalRates cfg [] [(ne, fun g => -(1 / esc g))] [(ni, inj)] dt
  dtpos : 0 < dt
  timepos : 0 ≤ cfg.totalTime
  two : 2 ≤ cfg.initialGamma.length
  order : (cfg.initialGamma.map cfg.num.log10).Pairwise (· < ·)
  apart : ∀ thr, cfg.mergeCloser = some thr → ∀ j, j + 1 < cfg.initialGamma.length →
    thr ≤ cfg.num.log10 (cfg.initialGamma.getD (j + 1) 0) - cfg.num.log10 (cfg.initialGamma.getD j 0)
  nonneg : ∀ x ∈ cfg.initialGamma, 0 ≤ dist.eval x
  injection : ∀ x ∈ cfg.initialGamma, 0 < inj x
  short : ∀ x ∈ cfg.initialGamma, dt < esc x

/-- `n` lies on the same side of `s` as `n0`, nearer by at least the factor `f` -/
def Approaches (f s n0 n : ℝ) : Prop := (s ≤ n0 → s ≤ n) ∧ (n0 ≤ s → n ≤ s) ∧ |n - s| ≤ f * |n0 - s|

theorem growth_pos {a dt T : ℝ} (hp : 0 < dt) (ha : 0 < 1 + a * dt) (k : ℕ) (hk : ∀ i, i < k → (i : ℝ) * dt < T) :
    0 < growth a dt T k := by
  induction k with
  | zero => norm_num [growth]
  | succ k ih => exact mul_pos (ih fun i hi => hk i (by omega)) (factor_pos hp ha (hk k (by omega)))

theorem approaches_of_growth {s n0 n g f : ℝ} (h : n - s = (n0 - s) * g) (h0 : 0 < g) (hf : g ≤ f) :
    Approaches f s n0 n := by
  refine ⟨fun h1 => ?_, fun h1 => ?_, ?_⟩
  · have := mul_nonneg (sub_nonneg.2 h1) h0.le
    linarith
  · have := mul_nonpos_of_nonpos_of_nonneg (sub_nonpos.2 h1) h0.le
    linarith
  · rw [h, abs_mul, abs_of_pos h0, mul_comm]
    exact mul_le_mul_of_nonneg_right hf (abs_nonneg _)

/-- **C116**: the run returns, no bin moves, and in each bin the density at the end, and at each callback, is on the same
side of the steady state `inj * esc` as at the start, nearer to it at least by the factor `exp(-t / esc)`. -/
theorem C116_steady_state {cfg : Cfg ℝ} {inj esc : ℝ → ℝ} {dt : ℝ} {dist : Dist ℝ} (h : EscapeRun cfg inj esc dt dist) :
    (∃ r d, Returns cfg dist r d) ∧
    (∀ r d, Returns cfg dist r d → r.gamma = cfg.initialGamma ∧ ∃ n : ℝ → ℝ, r.density = cfg.initialGamma.map n ∧
      ∀ x ∈ cfg.initialGamma, Approaches (Real.exp (-(cfg.totalTime / esc x))) (inj x * esc x) (dist.eval x) (n x)) ∧
    (∀ k c, KthCallback cfg dist k c → c.gamma = cfg.initialGamma ∧ ∃ n : ℝ → ℝ, c.density = cfg.initialGamma.map n ∧
      ∀ x ∈ cfg.initialGamma, Approaches (Real.exp (-(c.totalTime / esc x))) (inj x * esc x) (dist.eval x) (n x)) := by
  obtain ⟨ni, ne, hl⟩ := h.rates
  have hrel : ∀ x, rateSum [(ne, fun g => -(1 / esc g))] x = -(1 / esc x) := fun x => by simp [rateSum]
  have habs : ∀ x, rateSum [(ni, inj)] x = inj x := fun x => by simp [rateSum]
  have hesc : ∀ x ∈ cfg.initialGamma, 0 < esc x := fun x hx => h.dtpos.trans (h.short x hx)
  have hfac : ∀ x ∈ cfg.initialGamma, 0 < 1 + -(1 / esc x) * dt := by
    intro x hx
    have h1 : dt / esc x < 1 := (div_lt_one (hesc x hx)).2 (h.short x hx)
    have : -(1 / esc x) * dt = -(dt / esc x) := by ring
    linarith
  have main := C73_injection_escape hl h.dtpos h.timepos (fun x => by simp [rateSum]) (dist := dist) h.two h.order
    h.apart h.nonneg (fun x hx => by rw [habs]; exact (h.injection x hx).le)
    (fun x hx => by rw [hrel]; exact hfac x hx) (by
      rw [List.filter_eq_self.2 (fun x hx => ?_)]
      · exact h.two
      · rw [habs]
        have := h.nonneg x hx
        have := h.injection x hx
        simp only [decide_eq_true_eq]
        linarith)
  simp only [hrel, habs] at main
  obtain ⟨m1, m2, m3⟩ := main
  have key : ∀ (k : ℕ) (t : ℝ), (∀ i, i < k → (i : ℝ) * dt < cfg.totalTime) → t = min (k * dt) cfg.totalTime →
      ∀ x ∈ cfg.initialGamma, ∀ n : ℝ, (-(1 / esc x) ≠ 0 → n = (dist.eval x + inj x / -(1 / esc x))
        * growth (-(1 / esc x)) dt cfg.totalTime k - inj x / -(1 / esc x)) →
      Approaches (Real.exp (-(t / esc x))) (inj x * esc x) (dist.eval x) n := by
    intro k t hk ht x hx n hn
    have he := hesc x hx
    have e : inj x / -(1 / esc x) = -(inj x * esc x) := by field_simp
    have hne : -(1 / esc x) ≠ 0 := neg_ne_zero.2 (one_div_pos.2 he).ne'
    have hn := hn hne
    rw [e] at hn
    have hle := growth_le_exp h.dtpos (hfac x hx) h.timepos k hk
    have e2 : -(1 / esc x) * min (k * dt) cfg.totalTime = -(t / esc x) := by rw [← ht]; ring
    rw [e2] at hle
    refine approaches_of_growth ?_ (growth_pos h.dtpos (hfac x hx) k hk) hle
    rw [hn]
    ring
  have hN : ∀ k, k ≤ ⌈cfg.totalTime / dt⌉₊ → ∀ i, i < k → (i : ℝ) * dt < cfg.totalTime := by
    intro k hkN i hi
    have : (i : ℝ) < cfg.totalTime / dt := Nat.lt_ceil.1 (lt_of_lt_of_le hi hkN)
    rwa [lt_div_iff₀ h.dtpos] at this
  refine ⟨m1, fun r d hr => ?_, fun k c hc => ?_⟩
  · obtain ⟨e1, n, e2, hn⟩ := m2 r d hr
    refine ⟨e1, n, e2, fun x hx => key _ _ (hN _ le_rfl) ?_ x hx _ (hn x hx).2⟩
    refine (min_eq_right ?_).symm
    rw [← div_le_iff₀ h.dtpos]
    exact Nat.le_ceil _
  · obtain ⟨ht, hkN⟩ := C02_callback_times hl.fixed h.dtpos hc
    obtain ⟨e1, n, e2, hn⟩ := m3 k c hc
    exact ⟨e1, n, e2, fun x hx => key k _ (hN k hkN) ht x hx _ (hn x hx).2⟩

/-- **C116**: the longer the run, whatever its steps and its initial density, the closer to the steady state -/
theorem C116_limit {inj esc : ℝ → ℝ} {g0 : List ℝ} (cfg : ℕ → Cfg ℝ) (dt : ℕ → ℝ) (dist : Dist ℝ)
    (h : ∀ N, EscapeRun (cfg N) inj esc (dt N) dist) (hg : ∀ N, (cfg N).initialGamma = g0)
    (hT : Tendsto (fun N => (cfg N).totalTime) atTop atTop) {r : ℕ → Result ℝ} {d : ℕ → Dist ℝ}
    (hr : ∀ N, Returns (cfg N) dist (r N) (d N)) :
    ∃ n : ℕ → ℝ → ℝ, (∀ N, (r N).density = g0.map (n N)) ∧
      ∀ x ∈ g0, Tendsto (fun N => n N x) atTop (𝓝 (inj x * esc x)) := by
  choose e1 n e2 hn using fun N => (C116_steady_state (h N)).2.1 _ _ (hr N)
  refine ⟨n, fun N => by rw [e2, hg], fun x hx => ?_⟩
  have hx' : ∀ N, x ∈ (cfg N).initialGamma := fun N => by rw [hg]; exact hx
  have hesc : 0 < esc x := (h 0).dtpos.trans ((h 0).short x (hx' 0))
  have hexp : Tendsto (fun N => Real.exp (-((cfg N).totalTime / esc x)) * |dist.eval x - inj x * esc x|) atTop (𝓝 0) := by
    have h1 : Tendsto (fun N => (cfg N).totalTime / esc x) atTop atTop := hT.atTop_div_const hesc
    have h2 := (Real.tendsto_exp_neg_atTop_nhds_zero.comp h1).mul_const |dist.eval x - inj x * esc x|
    rw [zero_mul] at h2
    exact h2
  rw [tendsto_iff_norm_sub_tendsto_zero]
  exact squeeze_zero (fun N => norm_nonneg _) (fun N => (hn N x (hx' N)).2.2) hexp

/-! ### the hypotheses can be met -/

/-- injection of two particles per second against escape after the time gamma -/
noncomputable def steadyCfg (k : Consts) (dt T : ℝ) : Cfg ℝ := { physCfg k (fun _ p => p.gamma.map fun _ => 0) dt T with
  enFns := [], relFns := [("esc", fun _ p => p.gamma.map fun g => -(1 / g))], absFns := [("inj", fun _ p => p.gamma.map fun _ => 2)] }

example {k : Consts} (hk : k.Pos) {T : ℝ} (hT : 0 < T) :
    EscapeRun (steadyCfg k 1 T) (fun _ => 2) (fun g => g) 1 physDist := by
  have hs := physCfg_start k (fun _ p => p.gamma.map fun _ => 0) 1 T
  refine ⟨⟨"inj", "esc", { physCfg_wf hk (fun _ p => p.gamma.map fun _ => 0) 1 T with
      keysEn := by simp [steadyCfg]
      keysRel := by simp [steadyCfg]
      keysAbs := by simp [steadyCfg] }, rfl, rfl, rfl, rfl, rfl, rfl, rfl⟩, one_pos, hT.le, hs.two, hs.order, hs.apart,
    hs.nonneg, fun _ _ => two_pos, ?_⟩
  intro x hx
  have : x = 10 ∨ x = 100 := by simpa [steadyCfg, physCfg] using hx
  rcases this with rfl | rfl <;> norm_num

end Verif.TE
