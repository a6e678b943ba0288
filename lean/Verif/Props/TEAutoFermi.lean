import Verif.Props.TEAutoSteady

/-
C119: automatic steps of Fermi acceleration: the error is set by the thresholds alone.
-/

namespace Verif.TE

open Filter Topology

/-- a run with Fermi acceleration alone and automatic steps -/
structure AutoFermiRun (k : Consts) (cfg : Cfg ℝ) (t_acc : ℝ) (dist : Dist ℝ) : Prop where
  wf : cfg.WF
  num : cfg.num = realNumerics
  mec2 : cfg.mec2 = k.mec2
  en : ∃ name, cfg.enFns = [(name, fermiAcceleration k t_acc)]
  rel : cfg.relFns = []
  abs : cfg.absFns = []
  auto : cfg.stepDuration = .auto
  noOpt : cfg.optimize = false
  euler : cfg.heun = false
  noGroups : cfg.subgroups = none
  noBounds : cfg.gammaBounds = none
  start : CleanStart cfg dist
  acc : 0 < t_acc
  timepos : 0 ≤ cfg.totalTime

/-- the smaller of the permitted relative changes of energy and of density -/
noncomputable def tolerance (cfg : Cfg ℝ) : ℝ := min cfg.maxEnergyChange cfg.maxDensityChange

theorem AutoFermiRun.tol {k : Consts} {cfg : Cfg ℝ} {t_acc : ℝ} {dist : Dist ℝ} (h : AutoFermiRun k cfg t_acc dist) :
    0 < tolerance cfg :=
  have ht := h.wf.thresholds h.auto
  lt_min ht.1 ht.2.1

theorem AutoFermiRun.fixed {k : Consts} {cfg : Cfg ℝ} {t_acc : ℝ} {dist : Dist ℝ} (h : AutoFermiRun k cfg t_acc dist) {dt : ℝ}
    (hp : 0 < dt) : FermiRun k (withStep cfg dt) t_acc dt dist where
  wf := { h.wf with
    optAuto := fun ho => by
      have : cfg.optimize = true := ho
      rw [h.noOpt] at this
      exact absurd this (by simp)
    thresholds := fun ha => by simp [withStep] at ha }
  num := h.num
  mec2 := h.mec2
  en := h.en
  rel := h.rel
  abs := h.abs
  fixed := rfl
  euler := h.euler
  noGroups := h.noGroups
  noBounds := h.noBounds
  start := ⟨h.start.two, h.start.order, h.start.apart, h.start.nonneg, h.start.interp⟩
  acc := h.acc
  dtpos := hp
  timepos := h.timepos

/-- the limit of a bin does not depend on its Lorentz factor -/
theorem maxTimeBin_fermi {cfg : Cfg ℝ} (hm : 0 < cfg.mec2) {t_acc x : ℝ} (ha : 0 < t_acc) (hx : 0 < x) :
    maxTimeBin cfg (x * cfg.mec2) (x * (1 + binSizeFactor) * cfg.mec2) (1 / t_acc * (x * cfg.mec2))
      (1 / t_acc * (x * (1 + binSizeFactor) * cfg.mec2)) 0 0 = ((t_acc * tolerance cfg : ℝ) : WithTop ℝ) := by
  have hb : (0 : ℝ) < binSizeFactor := by norm_num [binSizeFactor]
  have h1 : 0 < 1 / t_acc * (x * cfg.mec2) := by positivity
  have h2 : 0 < 1 / t_acc * (x * (1 + binSizeFactor) * cfg.mec2) := by positivity
  have h3 : 0 < 1 / t_acc * (x * (1 + binSizeFactor) * cfg.mec2) - 1 / t_acc * (x * cfg.mec2) := by
    have : 1 / t_acc * (x * (1 + binSizeFactor) * cfg.mec2) - 1 / t_acc * (x * cfg.mec2)
        = 1 / t_acc * (x * binSizeFactor * cfg.mec2) := by ring
    rw [this]
    positivity
  have e1 : cfg.maxEnergyChange * (x * cfg.mec2) / (1 / t_acc * (x * cfg.mec2)) = t_acc * cfg.maxEnergyChange := by
    field_simp
  have e2 : cfg.maxEnergyChange * (x * (1 + binSizeFactor) * cfg.mec2)
      / (1 / t_acc * (x * (1 + binSizeFactor) * cfg.mec2)) = t_acc * cfg.maxEnergyChange := by
    have : (0 : ℝ) < 1 + binSizeFactor := by positivity
    field_simp
  have e3 : (x * (1 + binSizeFactor) * cfg.mec2 - x * cfg.mec2)
      / (1 / t_acc * (x * (1 + binSizeFactor) * cfg.mec2) - 1 / t_acc * (x * cfg.mec2)) = t_acc := by
    rw [div_eq_iff h3.ne']
    field_simp
  simp only [maxTimeBin, timeEdge, timeDensity, timeRel, timeAbs, ne_eq, h1.ne', h2.ne', h3.ne', not_false_eq_true, if_true,
    abs_of_pos h1, abs_of_pos h2, e1, e2, e3, ha, gt_iff_lt, lt_irrefl, if_false, not_true_eq_false, min_self]
  rw [min_eq_left le_top, ← WithTop.coe_min, tolerance, mul_min_of_nonneg _ _ ha.le]

theorem choose_fermi {k : Consts} {cfg : Cfg ℝ} {t_acc : ℝ} {dist : Dist ℝ} (h : AutoFermiRun k cfg t_acc dist) {name : String}
    {P : List (ℝ × ℝ)} (hP : ∀ p ∈ P, 0 < p.1) (hne : P ≠ []) :
    ChoosesStep cfg [(name, fun g => 1 / t_acc * (g * cfg.mec2))] [] [] (t_acc * tolerance cfg) P := by
  have hz : ∀ x : ℝ, totalOf ([] : List (String × (ℝ → ℝ))) x = 0 := fun x => by simp [totalOf]
  have he : ∀ x : ℝ, totalOf [(name, fun g => 1 / t_acc * (g * cfg.mec2))] x = 1 / t_acc * (x * cfg.mec2) :=
    fun x => by simp [totalOf]
  obtain ⟨_, _, _, hc⟩ := choose_general h.auto h.noOpt (enL := [(name, fun g => 1 / t_acc * (g * cfg.mec2))]) (relL := [])
    (absL := []) hne (fun p _ => (hz p.1).ge) (f := fun _ => t_acc * tolerance cfg) (fun p hp => by
      rw [he, he, hz]
      exact maxTimeBin_fermi h.wf.mec2 h.acc (hP p hp))
  exact hc

theorem reach_fermi {k : Consts} {cfg : Cfg ℝ} {t_acc : ℝ} {dist : Dist ℝ} (h : AutoFermiRun k cfg t_acc dist) (j : ℕ)
    (s : State ℝ) : ReachN cfg dist j s ↔ ReachN (withStep cfg (t_acc * tolerance cfg)) dist j s := by
  have hp : 0 < t_acc * tolerance cfg := mul_pos h.acc h.tol
  have hf := h.fixed hp
  obtain ⟨name, hl⟩ := hf.localRates
  have ha := h.acc
  have hg : (0 : ℝ) < 1 + 1 / t_acc * (t_acc * tolerance cfg) := by positivity
  have hrate : rateSum [(name, fun g => 1 / t_acc * (g * cfg.mec2))] = fun g => 1 / t_acc * (g * cfg.mec2) := by
    funext g; simp [rateSum]
  have hz : rateSum ([] : List (String × (ℝ → ℝ))) = fun _ => 0 := by funext g; simp [rateSum]
  refine reach_equal_steps hl hp h.start.two rfl (linear_smooth hl hp (hf.num ▸ realLog) hg hf.start)
    (fun k hk => choose_fermi h ?_ ?_) j s
  · change ∀ p ∈ eulerRun (eulerBin cfg.mec2 (rateSum [(name, fun g => 1 / t_acc * (g * cfg.mec2))]) (rateSum []) (rateSum []))
      (t_acc * tolerance cfg) cfg.totalTime (startPairs cfg dist) k, 0 < p.1
    rw [hrate, hz]
    unfold startPairs
    obtain ⟨h1, e⟩ := linear_run (T := cfg.totalTime) h.wf.mec2 hp hg h.wf.gammaPos dist.eval k hk
    intro p hpp
    have hpp' : p ∈ cfg.initialGamma.map fun x => (x * growth (1 / t_acc) (t_acc * tolerance cfg) cfg.totalTime k,
        dist.eval x / growth (1 / t_acc) (t_acc * tolerance cfg) cfg.totalTime k) := by rw [← e]; exact hpp
    obtain ⟨x, hx, rfl⟩ := List.mem_map.1 hpp'
    exact mul_pos (h.wf.gammaPos x hx) h1
  · intro he
    have hlen := congrArg List.length he
    rw [eulerRun_length] at hlen
    have := h.start.two
    simp [startPairs] at hlen
    rw [hlen] at this
    simp at this

/-- explicit steps not longer than `δ / a` lag behind the exponential by at most `1 + δ / 2` in time -/
theorem exp_le_growth {a dt T δ : ℝ} (ha : 0 < a) (hp : 0 < dt) (hδ : a * dt ≤ δ) (hT : 0 ≤ T) (k : ℕ)
    (hk : ∀ i : ℕ, i < k → (i : ℝ) * dt < T) :
    Real.exp (a * min (k * dt) T / (1 + δ / 2)) ≤ growth a dt T k := by
  have hδ0 : 0 < δ := (mul_pos ha hp).trans_le hδ
  induction k with
  | zero => simp [growth, hT]
  | succ k ih =>
    have h1 := ih fun i hi => hk i (by omega)
    have hlt := hk k (by omega)
    have hs := stepLen_pos hp hlt
    have hs' := stepLen_le dt T k
    rw [min_succ hlt, mul_add, add_div, Real.exp_add, growth]
    set u := a * stepLen dt T k with hu
    have hu0 : 0 < u := mul_pos ha hs
    have huδ : u ≤ δ := (mul_le_mul_of_nonneg_left hs' ha.le).trans hδ
    refine mul_le_mul h1 ?_ (Real.exp_pos _).le ((Real.exp_pos _).le.trans h1)
    rw [← Real.le_log_iff_exp_le (by linarith)]
    refine le_trans ?_ (Real.le_log_one_add_of_nonneg hu0.le)
    rw [div_le_div_iff₀ (by linarith) (by linarith)]
    nlinarith

/-- **C119**: with automatic steps Fermi acceleration returns, and shifts the spectrum as a whole, `γ → γ·Q`, `n → n/Q`; at
the end and at every callback `Q` lies between the exact factors of the times `t / (1 + δ/2)` and `t`, `δ` being the smaller
of the permitted relative changes, and after `k` whole steps, of `δ t_acc` each, it is `(1 + δ)^k`. -/
theorem C119_auto_fermi {k : Consts} {cfg : Cfg ℝ} {t_acc : ℝ} {dist : Dist ℝ} (h : AutoFermiRun k cfg t_acc dist) :
    (∃ r d, Returns cfg dist r d) ∧
    (∀ r d, Returns cfg dist r d → ∃ Q, r.gamma = cfg.initialGamma.map (· * Q) ∧
      r.density = cfg.initialGamma.map (fun x => dist.eval x / Q) ∧
      Real.exp (cfg.totalTime / t_acc / (1 + tolerance cfg / 2)) ≤ Q ∧ Q ≤ Real.exp (cfg.totalTime / t_acc)) ∧
    (∀ j c, KthCallback cfg dist j c → c.totalTime = min (j * (t_acc * tolerance cfg)) cfg.totalTime ∧
      ∃ Q, c.gamma = cfg.initialGamma.map (· * Q) ∧ c.density = cfg.initialGamma.map (fun x => dist.eval x / Q) ∧
      Real.exp (c.totalTime / t_acc / (1 + tolerance cfg / 2)) ≤ Q ∧ Q ≤ Real.exp (c.totalTime / t_acc) ∧
      (j * (t_acc * tolerance cfg) ≤ cfg.totalTime → Q = (1 + tolerance cfg) ^ j)) := by
  have hp : 0 < t_acc * tolerance cfg := mul_pos h.acc h.tol
  have hf := h.fixed hp
  obtain ⟨name, hl⟩ := hf.localRates
  have ha := h.acc
  have htol := h.tol
  have e0 : 1 / t_acc * (t_acc * tolerance cfg) = tolerance cfg := by field_simp
  have hg : (0 : ℝ) < 1 + 1 / t_acc * (t_acc * tolerance cfg) := by positivity
  obtain ⟨m1, m2, m3, m4⟩ := C71_linear_rate hl hp (hf.num ▸ realLog) hg hf.start
  have hr := reach_fermi h
  have hN : ∀ j, j ≤ ⌈cfg.totalTime / (t_acc * tolerance cfg)⌉₊ → ∀ i : ℕ, i < j →
      (i : ℝ) * (t_acc * tolerance cfg) < cfg.totalTime := by
    intro j hj i hi
    have : (i : ℝ) < cfg.totalTime / (t_acc * tolerance cfg) := Nat.lt_ceil.1 (lt_of_lt_of_le hi hj)
    rwa [lt_div_iff₀ hp] at this
  have key : ∀ (j : ℕ) (t : ℝ), j ≤ ⌈cfg.totalTime / (t_acc * tolerance cfg)⌉₊ →
      t = min (j * (t_acc * tolerance cfg)) cfg.totalTime →
      Real.exp (t / t_acc / (1 + tolerance cfg / 2)) ≤ growth (1 / t_acc) (t_acc * tolerance cfg) cfg.totalTime j ∧
      growth (1 / t_acc) (t_acc * tolerance cfg) cfg.totalTime j ≤ Real.exp (t / t_acc) := by
    intro j t hj ht
    have h1 := exp_le_growth (one_div_pos.2 ha) hp e0.le h.timepos j (hN j hj)
    have h2 := growth_le_exp hp hg h.timepos j (hN j hj)
    rw [← ht, one_div_mul_eq_div] at h1 h2
    exact ⟨h1, h2⟩
  refine ⟨?_, fun r d hret => ?_, fun j c hc => ?_⟩
  · obtain ⟨r, d, hret⟩ := m1
    exact ⟨r, d, returns_of_reachN (fun j s => (hr j s).2) rfl hret⟩
  · have hret' := returns_of_reachN (cfg' := withStep cfg (t_acc * tolerance cfg)) (fun j s => (hr j s).1) rfl hret
    obtain ⟨e1, e2⟩ := m2 r d hret'
    refine ⟨_, e1, e2, key _ _ le_rfl (min_eq_right ?_).symm⟩
    rw [← div_le_iff₀ hp]
    exact Nat.le_ceil _
  · have hc' : KthCallback (withStep cfg (t_acc * tolerance cfg)) dist j c := by
      unfold KthCallback at hc ⊢
      simpa only [hr] using hc
    obtain ⟨ht, hj⟩ := C02_callback_times hl.fixed hp hc'
    obtain ⟨e1, e2⟩ := m3 j c hc'
    obtain ⟨k1, k2⟩ := key j _ hj ht
    refine ⟨ht, _, e1, e2, k1, k2, fun hle => ?_⟩
    rw [m4 j hle, e0]

/-- **C119**: as the thresholds are lowered, the automatic run tends to the exact solution -/
theorem C119_limit {k : Consts} {t_acc T : ℝ} {dist : Dist ℝ} {g0 : List ℝ} (cfg : ℕ → Cfg ℝ)
    (h : ∀ N, AutoFermiRun k (cfg N) t_acc dist) (hg : ∀ N, (cfg N).initialGamma = g0) (hT : ∀ N, (cfg N).totalTime = T)
    (hδ : Tendsto (fun N => tolerance (cfg N)) atTop (𝓝 0)) {r : ℕ → Result ℝ} {d : ℕ → Dist ℝ}
    (hr : ∀ N, Returns (cfg N) dist (r N) (d N)) :
    ∃ Q : ℕ → ℝ, Tendsto Q atTop (𝓝 (Real.exp (T / t_acc))) ∧ ∀ N, (r N).gamma = g0.map (· * Q N) ∧
      (r N).density = g0.map fun x => dist.eval x / Q N := by
  choose Q e1 e2 q1 q2 using fun N => (C119_auto_fermi (h N)).2.1 _ _ (hr N)
  refine ⟨Q, ?_, fun N => ⟨by rw [e1, hg], by rw [e2, hg]⟩⟩
  simp only [hT] at q1 q2
  refine tendsto_of_tendsto_of_tendsto_of_le_of_le ?_ tendsto_const_nhds q1 q2
  have h1 : Tendsto (fun N => T / t_acc / (1 + tolerance (cfg N) / 2)) atTop (𝓝 (T / t_acc / (1 + 0 / 2))) :=
    tendsto_const_nhds.div (tendsto_const_nhds.add (hδ.div_const 2)) (by norm_num)
  rw [zero_div, add_zero, div_one] at h1
  exact (Real.continuous_exp.tendsto _).comp h1

/-! ### the hypotheses can be met -/

example {k : Consts} (hk : k.Pos) {T : ℝ} (hT : 0 < T) : AutoFermiRun k
    { physCfg k (fermiAcceleration k 7) 1 T with stepDuration := .auto } 7 physDist := by
  have hs := physCfg_start k (fermiAcceleration k 7) 1 T
  exact ⟨{ physCfg_wf hk (fermiAcceleration k 7) 1 T with
    thresholds := by simp [physCfg]
    optAuto := fun _ => rfl }, rfl, rfl, ⟨"f", rfl⟩, rfl, rfl, rfl, rfl, rfl, rfl, rfl,
    ⟨hs.two, hs.order, hs.apart, hs.nonneg, hs.interp⟩, by norm_num, hT.le⟩

end Verif.TE
