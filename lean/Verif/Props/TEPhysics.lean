import Mathlib.Analysis.SpecialFunctions.Pow.Real
import Mathlib.Analysis.SpecialFunctions.Complex.LogBounds
import Mathlib.Analysis.SpecialFunctions.Log.Deriv
import Verif.Model.RateFunctions
import Verif.Props.TEClosedForms
import Verif.Props.TESigns
import Verif.Props.EnergyLoss
import Verif.Props.TEConstructor
import Verif.Lemmas.Radiation

/-
C71, C72, C74 for the ready-made rate functions of the package, over the reals.
-/

namespace Verif.TE

open Verif.Np Verif.Region Filter Topology

theorem realLog : LogLaw realNumerics := by
  intro c x hc hx
  exact Real.logb_mul (ne_of_gt hc) (ne_of_gt hx)

theorem realLog_strict : ∀ x y : ℝ, 0 < x → x < y → realNumerics.log10 x < realNumerics.log10 y :=
  fun _ _ hx hxy => Real.logb_lt_logb (by norm_num) hx hxy

/-! ### C71: acceleration -/

theorem growth_le_exp {a dt T : ℝ} (hp : 0 < dt) (ha : 0 < 1 + a * dt) (hT : 0 ≤ T) (k : ℕ)
    (hk : ∀ i, i < k → (i : ℝ) * dt < T) :
    growth a dt T k ≤ Real.exp (a * min (k * dt) T) := by
  have hpos : ∀ k : ℕ, (∀ i, i < k → (i : ℝ) * dt < T) → 0 < growth a dt T k := by
    intro k
    induction k with
    | zero => intro _; norm_num [growth]
    | succ k ih =>
      intro hk
      exact mul_pos (ih (fun i hi => hk i (by omega))) (factor_pos hp ha (hk k (by omega)))
  induction k with
  | zero => simp [growth, hT]
  | succ k ih =>
    rw [min_succ (hk k (by omega)), mul_add, Real.exp_add, growth]
    have h1 := ih (fun i hi => hk i (by omega))
    have h2 : 1 + a * stepLen dt T k ≤ Real.exp (a * stepLen dt T k) := by
      have := Real.add_one_le_exp (a * stepLen dt T k); linarith
    exact mul_le_mul h1 h2 (factor_pos hp ha (hk k (by omega))).le (Real.exp_pos _).le

/-- a run with Fermi acceleration alone -/
structure FermiRun (k : Consts) (cfg : Cfg ℝ) (t_acc dt : ℝ) (dist : Dist ℝ) : Prop where
  wf : cfg.WF
  num : cfg.num = realNumerics
  mec2 : cfg.mec2 = k.mec2
  en : ∃ name, cfg.enFns = [(name, fermiAcceleration k t_acc)]
  rel : cfg.relFns = []
  abs : cfg.absFns = []
  fixed : cfg.stepDuration = .fixed dt
  euler : cfg.heun = false
  noGroups : cfg.subgroups = none
  noBounds : cfg.gammaBounds = none
  start : CleanStart cfg dist
  acc : 0 < t_acc
  dtpos : 0 < dt
  timepos : 0 ≤ cfg.totalTime

theorem FermiRun.localRates {k : Consts} {cfg : Cfg ℝ} {t_acc dt : ℝ} {dist : Dist ℝ}
    (h : FermiRun k cfg t_acc dt dist) :
    ∃ name, LocalRates cfg [(name, fun g => 1 / t_acc * (g * cfg.mec2))] [] [] dt := by
  obtain ⟨name, hen⟩ := h.en
  refine ⟨name, h.wf, ?_, h.rel, h.abs, h.fixed, h.euler, h.noGroups, h.noBounds⟩
  rw [hen, h.mec2]
  simp only [List.map_cons, List.map_nil, List.cons.injEq, Prod.mk.injEq, true_and, and_true]
  funext d p
  unfold fermiAcceleration
  apply List.map_congr_left
  intro g _
  ring

/-- Fermi acceleration: the run does not raise, the spectrum is shifted as a whole, `γ → γ·Q`, `n → n/Q`, where
`Q = (1 + dt/t_acc)^N` for `N` full steps; it never exceeds `exp(T/t_acc)`, the exact solution of `dγ/dt = γ/t_acc`. -/
theorem C71_fermi {k : Consts} {cfg : Cfg ℝ} {t_acc dt : ℝ} {dist : Dist ℝ} (h : FermiRun k cfg t_acc dt dist) :
    (∃ r d, Returns cfg dist r d) ∧ ∀ r d, Returns cfg dist r d → ∃ Q, 1 ≤ Q ∧ Q ≤ Real.exp (cfg.totalTime / t_acc) ∧
      r.gamma = cfg.initialGamma.map (· * Q) ∧ r.density = cfg.initialGamma.map (fun x => dist.eval x / Q) ∧
      ∀ N : ℕ, cfg.totalTime = N * dt → Q = (1 + dt / t_acc) ^ N := by
  obtain ⟨name, hl⟩ := h.localRates
  have ha := h.acc
  have hd := h.dtpos
  have hp : (0 : ℝ) < 1 + 1 / t_acc * dt := by positivity
  obtain ⟨m1, m2, -, m4⟩ := C71_linear_rate hl h.dtpos (h.num ▸ realLog) hp h.start
  refine ⟨m1, fun r d hr => ⟨_, ?_, ?_, (m2 r d hr).1, (m2 r d hr).2, ?_⟩⟩
  · have : ∀ j : ℕ, (∀ i, i < j → (i : ℝ) * dt < cfg.totalTime) → 1 ≤ growth (1 / t_acc) dt cfg.totalTime j := by
      intro j
      induction j with
      | zero => intro _; exact le_rfl
      | succ j ih =>
        intro hj
        have h1 := ih (fun i hi => hj i (by omega))
        have h2 := stepLen_pos hd (hj j (by omega))
        rw [growth]
        have : (1 : ℝ) ≤ 1 + 1 / t_acc * stepLen dt cfg.totalTime j := by
          have : 0 ≤ 1 / t_acc * stepLen dt cfg.totalTime j := by positivity
          linarith
        nlinarith
    apply this
    intro i hi
    have : (i : ℝ) < cfg.totalTime / dt := Nat.lt_ceil.1 hi
    rwa [lt_div_iff₀ hd] at this
  · refine le_trans (growth_le_exp hd hp h.timepos _ ?_) ?_
    · intro i hi
      have : (i : ℝ) < cfg.totalTime / dt := Nat.lt_ceil.1 hi
      rwa [lt_div_iff₀ hd] at this
    · apply Real.exp_le_exp.2
      rw [div_eq_inv_mul cfg.totalTime t_acc, one_div]
      exact mul_le_mul_of_nonneg_left (min_le_right _ _) (inv_nonneg.2 ha.le)
  · intro N hN
    have hc : ⌈cfg.totalTime / dt⌉₊ = N := by
      rw [hN, mul_div_assoc, div_self (ne_of_gt hd), mul_one]; simp
    rw [hc, m4 N hN.ge]
    congr 2
    ring

/-- ... and it converges to that solution as the steps are refined: for runs of the same initial data with
`N` steps of length `T/N`, the Lorentz factor that started at `x` tends to `x·exp(T/t_acc)`. -/
theorem C71_fermi_limit {k : Consts} {t_acc T : ℝ} {dist : Dist ℝ} {g0 : List ℝ} (cfg : ℕ → Cfg ℝ)
    (hg : ∀ N, 0 < N → (cfg N).initialGamma = g0) (hT : ∀ N, 0 < N → (cfg N).totalTime = T)
    (h : ∀ N, 0 < N → FermiRun k (cfg N) t_acc (T / N) dist) (r : ℕ → Result ℝ)
    (hr : ∀ N, 0 < N → ∃ d, Returns (cfg N) dist (r N) d) (j : ℕ) (hj : j < g0.length) :
    Tendsto (fun N => (r N).gamma.getD j 0) atTop (𝓝 (g0.getD j 0 * Real.exp (T / t_acc))) := by
  have hlim := (Real.tendsto_one_add_div_pow_exp (T / t_acc)).const_mul (g0.getD j 0)
  refine hlim.congr' ?_
  filter_upwards [eventually_gt_atTop 0] with N hN
  obtain ⟨d, hd⟩ := hr N hN
  have hN' : (N : ℝ) ≠ 0 := by positivity
  obtain ⟨Q, -, -, e1, -, hQ⟩ := (C71_fermi (h N hN)).2 _ _ hd
  rw [e1, hg N hN, getD_map' _ 0 0 hj, hQ N (by rw [hT N hN]; field_simp)]
  congr 3
  ring

/-! ### C72: synchrotron losses -/

/-- the constant `B` of `dγ/dt = −Bγ²` -/
noncomputable def coolingRate (k : Consts) (B : ℝ) : ℝ := 4 / 3 * k.sigma_T * k.c * (B ^ 2 / (8 * Real.pi)) / k.mec2

/-- a run with synchrotron losses alone -/
structure SynchRun (k : Consts) (cfg : Cfg ℝ) (B dt : ℝ) (dist : Dist ℝ) : Prop where
  consts : k.Pos
  wf : cfg.WF
  num : cfg.num = realNumerics
  mec2 : cfg.mec2 = k.mec2
  en : ∃ name, cfg.enFns = [(name, synchrotronLoss k B)]
  rel : cfg.relFns = []
  abs : cfg.absFns = []
  fixed : cfg.stepDuration = .fixed dt
  euler : cfg.heun = false
  noGroups : cfg.subgroups = none
  noBounds : cfg.gammaBounds = none
  noMerge : cfg.mergeCloser = none
  start : CleanStart cfg dist
  dtpos : 0 < dt
  timepos : 0 ≤ cfg.totalTime
  /-- the steps resolve the cooling time of the most energetic particles -/
  resolved : ∀ x ∈ cfg.initialGamma, 2.0001 * (coolingRate k B * x * dt) < 1

theorem mec2_pos {k : Consts} (hk : k.Pos) : 0 < k.mec2 := by
  have := hk.m_e; have := hk.c
  unfold Consts.mec2
  positivity

theorem SynchRun.localRates {k : Consts} {cfg : Cfg ℝ} {B dt : ℝ} {dist : Dist ℝ}
    (h : SynchRun k cfg B dt dist) :
    ∃ name, LocalRates cfg [(name, fun g => -(coolingRate k B * cfg.mec2 * g ^ 2))] [] [] dt := by
  obtain ⟨name, hen⟩ := h.en
  refine ⟨name, h.wf, ?_, h.rel, h.abs, h.fixed, h.euler, h.noGroups, h.noBounds⟩
  rw [hen, h.mec2]
  simp only [List.map_cons, List.map_nil, List.cons.injEq, Prod.mk.injEq, true_and, and_true]
  funext d p
  unfold synchrotronLoss
  apply List.map_congr_left
  intro g _
  have := ne_of_gt (mec2_pos h.consts)
  unfold Synchrotron.energyLossRate coolingRate
  field_simp

theorem coolingRate_nonneg {k : Consts} (hk : k.Pos) (B : ℝ) : 0 ≤ coolingRate k B := by
  have := mec2_pos hk; have := hk.sigma_T; have := hk.c
  unfold coolingRate
  positivity

/-- Synchrotron losses: the run does not raise and every bin follows the exact cooling law
`γ(T) = γ₀/(1 + Bγ₀T)`, `B = 4σ_T c U_B/(3 m_e c²)`, from below, within the bound given by replacing `B` with
`B/(1 − Bγ₀dt)`; densities are at least those of `n γ² = const`. -/
theorem C72_synchrotron {k : Consts} {cfg : Cfg ℝ} {B dt : ℝ} {dist : Dist ℝ} (h : SynchRun k cfg B dt dist) :
    (∃ r d, Returns cfg dist r d) ∧ ∀ r d, Returns cfg dist r d → ∃ S : ℝ → ℝ × ℝ,
      r.gamma = cfg.initialGamma.map (fun x => (S x).1) ∧ r.density = cfg.initialGamma.map (fun x => (S x).2) ∧
      ∀ x ∈ cfg.initialGamma,
        x / (1 + coolingRate k B * x * cfg.totalTime / (1 - coolingRate k B * x * dt)) ≤ (S x).1 ∧
        (S x).1 ≤ x / (1 + coolingRate k B * x * cfg.totalTime) ∧
        dist.eval x * (x / (S x).1) ^ 2 ≤ (S x).2 := by
  obtain ⟨name, hl⟩ := h.localRates
  obtain ⟨m1, m2, -⟩ := C72_quadratic_losses hl h.dtpos h.timepos (h.num ▸ realLog_strict)
    (coolingRate_nonneg h.consts B) h.noMerge h.start h.resolved
  refine ⟨m1, fun r d hr => ?_⟩
  obtain ⟨S, e1, e2, hS⟩ := m2 r d hr
  exact ⟨S, e1, e2, fun x hx => ⟨(hS x hx).lower, (hS x hx).upper, (hS x hx).dens⟩⟩

/-- ... and converges to it as the steps are refined -/
theorem C72_synchrotron_limit {k : Consts} {B T : ℝ} {dist : Dist ℝ} {g0 : List ℝ} (cfg : ℕ → Cfg ℝ) (dt : ℕ → ℝ)
    (hdt : Tendsto dt atTop (𝓝 0)) (hg : ∀ N, (cfg N).initialGamma = g0) (hT : ∀ N, (cfg N).totalTime = T)
    (h : ∀ N, SynchRun k (cfg N) B (dt N) dist) (r : ℕ → Result ℝ)
    (hr : ∀ N, ∃ d, Returns (cfg N) dist (r N) d) (j : ℕ) (hj : j < g0.length) :
    Tendsto (fun N => (r N).gamma.getD j 0) atTop
      (𝓝 (g0.getD j 0 / (1 + coolingRate k B * g0.getD j 0 * T))) := by
  set x := g0.getD j 0 with hx
  set b := coolingRate k B with hb
  have hx0 : x ∈ g0 := getD_mem hj
  have hxp : 0 < x := (h 0).wf.gammaPos x (by rw [hg]; exact hx0)
  have hT0 : 0 ≤ T := hT 0 ▸ (h 0).timepos
  have hb0 : 0 ≤ b := coolingRate_nonneg (h 0).consts B
  have hlow : Tendsto (fun N => x / (1 + b * x * T / (1 - b * x * dt N))) atTop
      (𝓝 (x / (1 + b * x * T))) := by
    have h1 : Tendsto (fun N => 1 - b * x * dt N) atTop (𝓝 1) := by
      have := (hdt.const_mul (b * x)).const_sub 1
      simpa using this
    have h2 : Tendsto (fun N => 1 + b * x * T / (1 - b * x * dt N)) atTop (𝓝 (1 + b * x * T / 1)) :=
      (tendsto_const_nhds.div h1 one_ne_zero).const_add 1
    rw [div_one] at h2
    exact tendsto_const_nhds.div h2 (by positivity)
  refine tendsto_of_tendsto_of_tendsto_of_le_of_le hlow tendsto_const_nhds ?_ ?_
  · intro N
    obtain ⟨d, hd⟩ := hr N
    obtain ⟨S, e1, -, hS⟩ := (C72_synchrotron (h N)).2 _ _ hd
    have := hS x (by rw [hg]; exact hx0)
    rw [hT N] at this
    show _ ≤ (r N).gamma.getD j 0
    rw [e1, hg N, getD_map' _ 0 0 hj]
    exact this.1
  · intro N
    obtain ⟨d, hd⟩ := hr N
    obtain ⟨S, e1, -, hS⟩ := (C72_synchrotron (h N)).2 _ _ hd
    have := hS x (by rw [hg]; exact hx0)
    rw [hT N] at this
    show (r N).gamma.getD j 0 ≤ _
    rw [e1, hg N, getD_map' _ 0 0 hj]
    exact this.2.1

/-! ### C74 -/

/-- The loss functions of the package satisfy the hypothesis of `C74_losses_only`, the acceleration that of
`C74_gains_only`. -/
theorem C74_loss_functions {k : Consts} (hk : k.Pos) {B : ℝ} {blob : Dist ℝ → Blob}
    (hb : ∀ d : Dist ℝ, (∀ x, 0 ≤ d.eval x) → Absorption.BlobOK k (blob d)) {name : String} {f : GammaFn ℝ}
    (hf : f = synchrotronLoss k B ∨ f = sscLoss k blob ∨ f = sscThomsonLoss k blob) :
    FnsIn (· ≤ 0) [(name, f)] := by
  intro q hq d p hd hp v hv
  simp only [List.mem_singleton] at hq
  subst hq
  rcases hf with rfl | rfl | rfl
  · obtain ⟨g, -, rfl⟩ := List.mem_map.1 hv
    have := hk.sigma_T; have := hk.c
    have : 0 ≤ Synchrotron.energyLossRate k B g := by unfold Synchrotron.energyLossRate; positivity
    linarith
  · obtain ⟨g, hg, rfl⟩ := List.mem_map.1 hv
    have := (Compton.C55_ssc (hb d hd) (hp g hg).le).1
    linarith
  · obtain ⟨g, -, rfl⟩ := List.mem_map.1 hv
    have := (Compton.C55_thomson (hb d hd) g).1
    linarith

theorem C74_gain_functions {k : Consts} (hk : k.Pos) {t_acc : ℝ} (ht : 0 < t_acc) {name : String} :
    FnsIn (0 ≤ ·) [(name, fermiAcceleration k t_acc)] := by
  intro q hq d p hd hp v hv
  simp only [List.mem_singleton] at hq
  subst hq
  obtain ⟨g, hg, rfl⟩ := List.mem_map.1 hv
  have := hp g hg
  have := mec2_pos hk
  positivity

/-! ### the hypotheses can be met -/

/-- two bins, one rate function, `dt` and `T` as given -/
noncomputable def physCfg (k : Consts) (f : GammaFn ℝ) (dt T : ℝ) : Cfg ℝ where
  num := realNumerics
  mec2 := k.mec2
  totalTime := T
  stepDuration := .fixed dt
  enFns := [("f", f)]
  relFns := []
  absFns := []
  initialGamma := [10, 100]
  gammaBounds := none
  maxBinCreep := 1/10
  mergeCloser := none
  maxEnergyChange := 1/100
  maxDensityChange := 1/100
  maxInjection := 1
  optimize := false
  heun := false
  subgroups := none
  initialFractions := none

noncomputable def physDist : Dist ℝ := ⟨fun x => 1 / x, .scalar 10, .scalar 100⟩

theorem physCfg_wf {k : Consts} (hk : k.Pos) (f : GammaFn ℝ) (dt T : ℝ) : (physCfg k f dt T).WF where
  lawful := realNumerics_lawful
  mec2 := mec2_pos hk
  optAuto := by simp [physCfg]
  thresholds := by simp [physCfg]
  keysEn := by simp [physCfg]
  keysRel := by simp [physCfg]
  keysAbs := by simp [physCfg]
  gammaPos := by simp [physCfg]
  gammaSorted := by simp [physCfg]; norm_num
  bounds := by simp [physCfg]
  fractions := by simp [physCfg]

theorem physCfg_start (k : Consts) (f : GammaFn ℝ) (dt T : ℝ) : CleanStart (physCfg k f dt T) physDist where
  two := by simp [physCfg]
  order := by
    have := realLog_strict 10 100 (by norm_num) (by norm_num)
    simpa [physCfg] using this
  apart := by simp [physCfg]
  nonneg := by simp [physCfg, physDist]
  interp := by simp [physCfg, physDist]

/-- Fermi acceleration with one thousand and one steps of T/1001 -/
example {k : Consts} (hk : k.Pos) {T : ℝ} (hT : 0 < T) :
    ∃ r d, Returns (physCfg k (fermiAcceleration k 7) (T / 1001) T) physDist r d ∧
    r.gamma = [10, 100].map (· * (1 + T / 1001 / 7) ^ 1001) := by
  obtain ⟨⟨r, d, hr⟩, h2⟩ := C71_fermi (k := k) (t_acc := 7) (dt := T / 1001)
    (cfg := physCfg k (fermiAcceleration k 7) (T / 1001) T)
    ⟨physCfg_wf hk _ _ _, rfl, rfl, ⟨"f", rfl⟩, rfl, rfl, rfl, rfl, rfl, rfl, physCfg_start _ _ _ _, by norm_num,
      by positivity, hT.le⟩
  obtain ⟨Q, -, -, e1, -, hQ⟩ := h2 r d hr
  refine ⟨r, d, hr, ?_⟩
  rw [hQ 1001 (by show T = _; push_cast; ring)] at e1
  exact e1

/-- the limit theorem applies: there are runs for every number of steps -/
example {k : Consts} (hk : k.Pos) {T : ℝ} (hT : 0 < T) : ∃ r : ℕ → Result ℝ,
    (∀ N : ℕ, 0 < N → ∃ d, Returns (physCfg k (fermiAcceleration k 7) (T / N) T) physDist (r N) d) ∧
    Tendsto (fun N => (r N).gamma.getD 1 0) atTop (𝓝 (100 * Real.exp (T / 7))) := by
  have hrun : ∀ N : ℕ, 0 < N → FermiRun k (physCfg k (fermiAcceleration k 7) (T / N) T) 7 (T / N) physDist :=
    fun N hN => ⟨physCfg_wf hk _ _ _, rfl, rfl, ⟨"f", rfl⟩, rfl, rfl, rfl, rfl, rfl, rfl, physCfg_start _ _ _ _,
      by norm_num, by positivity, hT.le⟩
  have hex : ∀ N : ℕ, ∃ r, 0 < N → ∃ d, Returns (physCfg k (fermiAcceleration k 7) (T / N) T) physDist r d := by
    intro N
    by_cases hN : 0 < N
    · obtain ⟨⟨r, d, hr⟩, -⟩ := C71_fermi (hrun N hN)
      exact ⟨r, fun _ => ⟨d, hr⟩⟩
    · obtain ⟨⟨r, d, hr⟩, -⟩ := C71_fermi (hrun 1 one_pos)
      exact ⟨r, fun h => absurd h hN⟩
  choose r hr using hex
  exact ⟨r, hr, C71_fermi_limit (g0 := [10, 100])
    (fun N : ℕ => physCfg k (fermiAcceleration k 7) (T / N) T) (fun _ _ => rfl) (fun _ _ => rfl) hrun r hr 1 (by simp)⟩

/-- synchrotron cooling with steps resolving the cooling time -/
example {k : Consts} (hk : k.Pos) {T B : ℝ} (hT : 0 < T) (hB : 0 < B) : ∃ (r : ℕ → Result ℝ) (dt : ℕ → ℝ),
    (∀ N, 0 < dt N ∧ ∃ d, Returns (physCfg k (synchrotronLoss k B) (dt N) T) physDist (r N) d) ∧
    Tendsto (fun N => (r N).gamma.getD 1 0) atTop (𝓝 (100 / (1 + coolingRate k B * 100 * T))) := by
  have hb : 0 < coolingRate k B := by
    have := mec2_pos hk; have := hk.sigma_T; have := hk.c
    unfold coolingRate
    positivity
  let dt : ℕ → ℝ := fun N => 1 / (coolingRate k B * 1000) * (1 / ((N : ℝ) + 1))
  have hdt : ∀ N, 0 < dt N := fun N => by simp only [dt]; positivity
  have hrun : ∀ N, SynchRun k (physCfg k (synchrotronLoss k B) (dt N) T) B (dt N) physDist := by
    intro N
    refine ⟨hk, physCfg_wf hk _ _ _, rfl, rfl, ⟨"f", rfl⟩, rfl, rfl, rfl, rfl, rfl, rfl, rfl, physCfg_start _ _ _ _,
      hdt N, hT.le, ?_⟩
    have h1 : (1 : ℝ) / ((N : ℝ) + 1) ≤ 1 := by
      rw [div_le_one (by positivity)]; linarith [(Nat.cast_nonneg N : (0 : ℝ) ≤ N)]
    have h2 : coolingRate k B * dt N ≤ 1 / 1000 := by
      have : coolingRate k B * dt N = 1 / 1000 * (1 / ((N : ℝ) + 1)) := by simp only [dt]; field_simp
      rw [this]; linarith
    intro x hx
    have : x = 10 ∨ x = 100 := by simpa [physCfg] using hx
    rcases this with rfl | rfl <;> nlinarith
  have hlim : Tendsto dt atTop (𝓝 0) := by
    have := (tendsto_one_div_add_atTop_nhds_zero_nat (𝕜 := ℝ)).const_mul (1 / (coolingRate k B * 1000))
    simpa [dt] using this
  choose r hr using fun N => (C72_synchrotron (hrun N)).1
  exact ⟨r, dt, fun N => ⟨hdt N, hr N⟩,
    C72_synchrotron_limit (g0 := [10, 100])
      (fun N => physCfg k (synchrotronLoss k B) (dt N) T) dt hlim (fun _ => rfl) (fun _ => rfl) hrun r hr 1 (by simp)⟩

/-! ### C19: the default grid over the reals -/

theorem realLogspace_ok :
    LogspaceOK fun lo hi n => MathUtils.logspace (MathUtils.log10 lo) (MathUtils.log10 hi) n := by
  intro lo hi n h0 h1 hn
  refine ⟨by simp [MathUtils.logspace, MathUtils.linspace],
    Spectra.logspace_pairwise (Spectra.log10_lt h0 h1) n hn, ?_⟩
  obtain ⟨mid, e⟩ := Verif.logspace_ends_n h0 (lt_trans h0 h1) hn
  dsimp only
  rw [e]
  exact ⟨rfl, by rw [← List.cons_append]; exact List.getLast?_concat⟩

/-- synchrotron cooling of a blob with 200 points over [1, 1e6], limited to [10, 1e8], started without a grid -/
noncomputable def physEnv (k : Consts) : Env ℝ :=
  ⟨realNumerics, k.mec2, fun lo hi n => MathUtils.logspace (MathUtils.log10 lo) (MathUtils.log10 hi) n, 1, 10 ^ 6, 200⟩

noncomputable def physArgs (k : Consts) : Args ℝ where
  totalTime := 3
  enFns := .dict [("cool", synchrotronLoss k 1)]
  relFns := .absent
  absFns := .absent
  step := .quantity (1/2)
  initialGamma := none
  gammaBounds := some (10, 10 ^ 8)
  maxBinCreep := 1/10
  mergeCloser := none
  maxEnergyChange := 1/100
  maxDensityChange := 1/10
  maxInjection := 1
  optimize := none
  method := "heun"
  subgroups := none
  initialFractions := none

example {k : Consts} (hk : k.Pos) : ∃ cfg, construct (physEnv k) (physArgs k) = .ok cfg ∧ cfg.WF ∧
    cfg.initialGamma.length = 200 ∧ cfg.initialGamma.head? = some 10 := by
  obtain ⟨cfg, h⟩ := (C19_accepts_iff (physEnv k) (physArgs k)).2
    { step := .inr ⟨_, rfl⟩
      enRel := by simp [physArgs, FnsArg.names]
      enAbs := by simp [physArgs, FnsArg.names]
      relAbs := by simp [physArgs, FnsArg.names]
      inBounds := by simp [physArgs]
      increasing := by simp [physArgs]
      optimise := by simp [physArgs]
      method := .inr (show "heun".toLower = "heun" by decide +kernel)
      noHeun := by simp [physArgs, Args.Optimised, Args.Auto]
      known := by simp [physArgs]
      fractions := by simp [physArgs] }
  have hover : ∀ lo hi, (physArgs k).gammaBounds = some (lo, hi) →
      lo < hi ∧ lo < (physEnv k).blobMax ∧ (physEnv k).blobMin < hi := by
    intro lo hi e
    simp only [physArgs, Option.some.injEq, Prod.mk.injEq] at e
    obtain ⟨rfl, rfl⟩ := e
    norm_num [physEnv]
  have h1 : (physEnv k).blobMin < (physEnv k).blobMax := by norm_num [physEnv]
  have h0 : 0 < (physEnv k).blobMin := by norm_num [physEnv]
  have h2 : 2 ≤ (physEnv k).blobSize := by norm_num [physEnv]
  refine ⟨cfg, h, C19_sufficient_default _ _ h realNumerics_lawful (mec2_pos hk) ?_ realLogspace_ok rfl h0 h1 h2 hover
    (by norm_num [physArgs]) ?_, ?_, ?_⟩
  · intro l hl
    rcases hl with e | e | e
    · simp only [physArgs, FnsArg.dict.injEq] at e
      subst e; simp
    · simp [physArgs] at e
    · simp [physArgs] at e
  · intro lo hi e
    simp only [physArgs, Option.some.injEq, Prod.mk.injEq] at e
    obtain ⟨rfl, rfl⟩ := e
    refine ⟨by norm_num, by norm_num [physArgs], ?_⟩
    show Real.logb 10 (10 ^ 8) - Real.logb 10 (10 ^ 8 / (1 + binSizeFactor)) < 1 / 10
    have hb : (0 : ℝ) < 1 + binSizeFactor := by norm_num [binSizeFactor]
    rw [Real.logb_div (by norm_num) (ne_of_gt hb), sub_sub_cancel, Real.logb_lt_iff_lt_rpow (by norm_num) hb]
    have h3 : (1 : ℝ) + binSizeFactor < (5 / 4) := by norm_num [binSizeFactor]
    have h4 : (5 / 4 : ℝ) ≤ 10 ^ (1 / 10 : ℝ) := by
      have : (5 / 4 : ℝ) = ((5 / 4 : ℝ) ^ (10 : ℕ)) ^ (1 / 10 : ℝ) := by
        rw [← Real.rpow_natCast, ← Real.rpow_mul (by norm_num)]; norm_num
      rw [this]
      exact Real.rpow_le_rpow (by norm_num) (by norm_num) (by norm_num)
    linarith
  · exact (C19_default_grid _ _ h realLogspace_ok rfl h0 h1 h2 hover).1
  · obtain ⟨-, -, g3, g4, first, last, e1, -, e3, -⟩ := C19_default_grid _ _ h realLogspace_ok rfl h0 h1 h2 hover
    rw [e1]
    have a1 := e3 10 (by norm_num [physEnv]) (by
      intro lo hi e
      simp only [physArgs, Option.some.injEq, Prod.mk.injEq] at e
      exact e.1.ge)
    have a2 := (g4 10 (10 ^ 8) rfl first (List.mem_of_head? e1)).1
    rw [le_antisymm a1 a2]

end Verif.TE
