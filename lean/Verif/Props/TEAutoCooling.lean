import Verif.Props.TEAutoFermi

/-
C120: automatic steps of synchrotron cooling: the steps grow as the particles cool, the run never raises, and the error is
set by the thresholds alone.
-/

namespace Verif.TE

open Filter Topology

/-- a run with synchrotron losses alone and automatic steps -/
structure AutoSynchRun (k : Consts) (cfg : Cfg ℝ) (B : ℝ) (dist : Dist ℝ) : Prop where
  consts : k.Pos
  wf : cfg.WF
  num : cfg.num = realNumerics
  mec2 : cfg.mec2 = k.mec2
  en : ∃ name, cfg.enFns = [(name, synchrotronLoss k B)]
  rel : cfg.relFns = []
  abs : cfg.absFns = []
  auto : cfg.stepDuration = .auto
  noOpt : cfg.optimize = false
  euler : cfg.heun = false
  noGroups : cfg.subgroups = none
  noBounds : cfg.gammaBounds = none
  noMerge : cfg.mergeCloser = none
  start : CleanStart cfg dist
  field : B ≠ 0
  timepos : 0 ≤ cfg.totalTime

/-- the fraction of the energy that the most energetic particles lose in one step -/
noncomputable def coolTol (cfg : Cfg ℝ) : ℝ :=
  min (cfg.maxEnergyChange / 1.0001) (cfg.maxDensityChange / (1 + cfg.maxDensityChange) / 2.0001)

theorem AutoSynchRun.tol {k : Consts} {cfg : Cfg ℝ} {B : ℝ} {dist : Dist ℝ} (h : AutoSynchRun k cfg B dist) :
    0 < coolTol cfg ∧ 2.0001 * coolTol cfg < 1 := by
  have ht := h.wf.thresholds h.auto
  have h1 := ht.1
  have h2 := ht.2.1
  refine ⟨lt_min (by positivity) (by positivity), ?_⟩
  have h3 : cfg.maxDensityChange / (1 + cfg.maxDensityChange) < 1 := by
    rw [div_lt_one (by linarith)]
    linarith
  have h4 : coolTol cfg ≤ cfg.maxDensityChange / (1 + cfg.maxDensityChange) / 2.0001 := min_le_right _ _
  rw [le_div_iff₀ (by norm_num)] at h4
  linarith

theorem AutoSynchRun.rate {k : Consts} {cfg : Cfg ℝ} {B : ℝ} {dist : Dist ℝ} (h : AutoSynchRun k cfg B dist) :
    0 < coolingRate k B := by
  have := mec2_pos h.consts
  have := h.consts.sigma_T
  have := h.consts.c
  have := h.field
  unfold coolingRate
  positivity

theorem AutoSynchRun.localRates {k : Consts} {cfg : Cfg ℝ} {B : ℝ} {dist : Dist ℝ} (h : AutoSynchRun k cfg B dist) :
    ∃ name, ∀ dt, LocalRates (withStep cfg dt) [(name, fun g => -(coolingRate k B * cfg.mec2 * g ^ 2))] [] [] dt := by
  obtain ⟨name, hen⟩ := h.en
  refine ⟨name, fun dt => ⟨{ h.wf with
    optAuto := fun ho => by
      have : cfg.optimize = true := ho
      rw [h.noOpt] at this
      exact absurd this (by simp)
    thresholds := fun ha => by simp [withStep] at ha }, ?_, h.rel, h.abs, rfl, h.euler, h.noGroups, h.noBounds⟩⟩
  show cfg.enFns = _
  rw [hen, h.mec2]
  simp only [List.map_cons, List.map_nil, List.cons.injEq, Prod.mk.injEq, true_and, and_true]
  funext d p
  unfold synchrotronLoss
  apply List.map_congr_left
  intro g _
  have := ne_of_gt (mec2_pos h.consts)
  unfold Synchrotron.energyLossRate coolingRate
  field_simp

theorem maxTimeBin_cool {cfg : Cfg ℝ} (hm : 0 < cfg.mec2) {b x : ℝ} (hb : 0 < b) (hx : 0 < x)
    (he : 0 < cfg.maxEnergyChange) (hd : 0 < cfg.maxDensityChange) :
    maxTimeBin cfg (x * cfg.mec2) (x * (1 + binSizeFactor) * cfg.mec2) (-(b * cfg.mec2 * x ^ 2))
      (-(b * cfg.mec2 * (x * (1 + binSizeFactor)) ^ 2)) 0 0 = ((coolTol cfg / (b * x) : ℝ) : WithTop ℝ) := by
  have hf : (binSizeFactor : ℝ) = 1 / 10000 := rfl
  rw [hf]
  have h1 : 0 < b * cfg.mec2 * x ^ 2 := by positivity
  have h2 : 0 < b * cfg.mec2 * (x * (1 + 1 / 10000)) ^ 2 := by positivity
  have e3 : -(b * cfg.mec2 * (x * (1 + 1 / 10000)) ^ 2) - -(b * cfg.mec2 * x ^ 2)
      = -(b * cfg.mec2 * x ^ 2 * (2.0001 / 10000)) := by ring
  have h3 : 0 < b * cfg.mec2 * x ^ 2 * (2.0001 / 10000) := by positivity
  have e4 : (x * (1 + 1 / 10000) * cfg.mec2 - x * cfg.mec2) / -(b * cfg.mec2 * x ^ 2 * (2.0001 / 10000))
      = -(1 / (b * x * 2.0001)) := by
    field_simp
    ring
  have h4 : ¬ -(1 / (b * x * 2.0001)) > 0 := by
    have : 0 < 1 / (b * x * 2.0001) := by positivity
    linarith
  have n1 : -(b * cfg.mec2 * x ^ 2) ≠ 0 := by linarith
  have n2 : -(b * cfg.mec2 * (x * (1 + 1 / 10000)) ^ 2) ≠ 0 := by linarith
  have n3 : -(b * cfg.mec2 * x ^ 2 * (2.0001 / 10000)) ≠ 0 := by linarith
  have hpos : 0 < b * x := by positivity
  have v1 : cfg.maxEnergyChange * (x * cfg.mec2) / (b * cfg.mec2 * x ^ 2) = cfg.maxEnergyChange / (b * x) := by
    field_simp
  have v2 : cfg.maxEnergyChange * (x * (1 + 1 / 10000) * cfg.mec2) / (b * cfg.mec2 * (x * (1 + 1 / 10000)) ^ 2)
      = cfg.maxEnergyChange / 1.0001 / (b * x) := by
    field_simp
    norm_num
  have v3 : - -(1 / (b * x * 2.0001)) * cfg.maxDensityChange / (1 + cfg.maxDensityChange)
      = cfg.maxDensityChange / (1 + cfg.maxDensityChange) / 2.0001 / (b * x) := by
    field_simp
  simp only [maxTimeBin, timeEdge, timeDensity, timeRel, timeAbs, e3, e4, if_neg h4, if_pos n1, if_pos n2, if_pos n3,
    abs_neg, abs_of_pos h1, abs_of_pos h2, v1, v2, v3, ne_eq, not_true_eq_false, if_false,
    lt_irrefl]
  have hle : cfg.maxEnergyChange / 1.0001 / (b * x) ≤ cfg.maxEnergyChange / (b * x) := by
    gcongr
    rw [div_le_iff₀ (by norm_num)]
    linarith
  rw [min_self, min_eq_left le_top, ← WithTop.coe_min, ← WithTop.coe_min, min_eq_right hle, coolTol,
    min_div_div_right hpos.le]

/-- what is known of a bin that started from `(x, n)` after the time `t`: its Lorentz factor lies between the exact ones of
the times `t / (1 - τ)` and `t`, and its density is not below that of particle-number conservation -/
structure CoolInv (b τ t x n : ℝ) (q : ℝ × ℝ) : Prop where
  pos : 0 < q.1
  le : q.1 ≤ x
  upper : q.1 ≤ x / (1 + b * x * t)
  lower : x / (1 + b * x * (t / (1 - τ))) ≤ q.1
  dens : n * (x / q.1) ^ 2 ≤ q.2

theorem CoolInv.start {b τ x n : ℝ} (hx : 0 < x) : CoolInv b τ 0 x n (x, n) :=
  ⟨hx, le_rfl, by simp, by simp, by simp [hx.ne']⟩

theorem CoolInv.next {b τ s t x n : ℝ} {q : ℝ × ℝ} (h : CoolInv b τ s x n q) (hb : 0 < b) (hx : 0 < x) (hn : 0 ≤ n)
    (hs : 0 ≤ s) (ht : 0 ≤ t) (hτ : 2.0001 * τ < 1) (hq : b * q.1 * t ≤ τ) : CoolInv b τ (s + t) x n (quadBin b t q) := by
  obtain ⟨h1, h2, h3, h4, h5⟩ := h
  obtain ⟨y, m⟩ := q
  change 0 < y at h1
  change y ≤ x at h2
  change y ≤ _ at h3
  change _ ≤ y at h4
  change n * (x / y) ^ 2 ≤ m at h5
  change b * y * t ≤ τ at hq
  have hq0 : 0 ≤ b * y * t := by positivity
  have hw : 0 < 1 - τ := by linarith
  have h1q : 0 < 1 - b * y * t := by linarith
  have h2q : 0 < 1 - 2.0001 * (b * y * t) := by linarith
  refine ⟨mul_pos h1 h1q, ?_, ?_, ?_, ?_⟩
  · show y * (1 - b * y * t) ≤ x
    nlinarith
  · show y * (1 - b * y * t) ≤ x / (1 + b * x * (s + t))
    rw [le_div_iff₀ (by positivity)] at h3 ⊢
    have e : y * (1 - b * y * t) * (1 + b * x * (s + t))
        = (1 - b * y * t) * (y * (1 + b * x * s)) + (1 - b * y * t) * (b * y * t) * x := by ring
    rw [e]
    nlinarith [mul_le_mul_of_nonneg_left h3 h1q.le, mul_nonneg (mul_nonneg hq0 hq0) hx.le]
  · show x / (1 + b * x * ((s + t) / (1 - τ))) ≤ y * (1 - b * y * t)
    rw [div_le_iff₀ (by positivity)] at h4 ⊢
    have e : y * (1 - b * y * t) * (1 + b * x * ((s + t) / (1 - τ)))
        = (1 - b * y * t) * (y * (1 + b * x * (s / (1 - τ)))) + x * (b * y * t) * ((1 - b * y * t) / (1 - τ)) := by
      field_simp; ring
    rw [e]
    have h6 : 1 ≤ (1 - b * y * t) / (1 - τ) := by rw [one_le_div hw]; linarith
    nlinarith [mul_le_mul_of_nonneg_left h4 h1q.le, mul_le_mul_of_nonneg_left h6 (mul_nonneg hx.le hq0)]
  · show n * (x / (y * (1 - b * y * t))) ^ 2 ≤ m / (1 - 2.0001 * (b * y * t))
    have e : n * (x / (y * (1 - b * y * t))) ^ 2 = n * (x / y) ^ 2 / (1 - b * y * t) ^ 2 := by
      field_simp
    rw [e]
    have hm : 0 ≤ n * (x / y) ^ 2 := by positivity
    apply div_le_div₀ (le_trans hm h5) h5 h2q
    nlinarith [sq_nonneg (b * y * t)]

/-- the states of the run -/
def CoolState (cfg : Cfg ℝ) (name : String) (b : ℝ) (dist : Dist ℝ) (s : State ℝ) : Prop :=
  ∃ (S : ℝ → ℝ × ℝ) (el : ℝ) (tl : List (WithTop ℝ)) (d : Dist ℝ),
    s = localState [(name, fun g => -(b * cfg.mec2 * g ^ 2))] [] [] (cfg.initialGamma.map S) el tl d ∧
    0 ≤ el ∧ el ≤ cfg.totalTime ∧ (∀ x ∈ cfg.initialGamma, CoolInv b (coolTol cfg) el x (dist.eval x) (S x)) ∧
    cfg.initialGamma.Pairwise fun x y => (S x).1 < (S y).1

theorem cool_step {k : Consts} {cfg : Cfg ℝ} {B : ℝ} {dist : Dist ℝ} (h : AutoSynchRun k cfg B dist) {name : String}
    (hl : ∀ dt, LocalRates (withStep cfg dt) [(name, fun g => -(coolingRate k B * cfg.mec2 * g ^ 2))] [] [] dt) {M : ℝ}
    (hM : ∀ x ∈ cfg.initialGamma, x ≤ M) {s : State ℝ} (hs : CoolState cfg name (coolingRate k B) dist s)
    (hlt : s.elapsed < cfg.totalTime) :
    ∃ s', step cfg s = .ok s' ∧ CoolState cfg name (coolingRate k B) dist s' ∧
      (cfg.totalTime ≤ s'.elapsed ∨ s.elapsed + coolTol cfg / (coolingRate k B * M) ≤ s'.elapsed) := by
  obtain ⟨S, el, tl, d, rfl, h0, hT, hinv, hord⟩ := hs
  change el < cfg.totalTime at hlt
  have hb := h.rate
  obtain ⟨ht0, ht1⟩ := h.tol
  have hm := h.wf.mec2
  set b := coolingRate k B with hbdef
  set enL : List (String × (ℝ → ℝ)) := [(name, fun g => -(b * cfg.mec2 * g ^ 2))] with henL
  have hz : ∀ x : ℝ, totalOf ([] : List (String × (ℝ → ℝ))) x = 0 := fun x => by simp [totalOf]
  have he : ∀ x : ℝ, totalOf enL x = -(b * cfg.mec2 * x ^ 2) := fun x => by simp [totalOf, henL]
  have hrate : rateSum enL = fun g => -(b * cfg.mec2 * g ^ 2) := by funext g; simp [rateSum, henL]
  have hz' : rateSum ([] : List (String × (ℝ → ℝ))) = fun _ => 0 := by funext g; simp [rateSum]
  have hne : cfg.initialGamma.map S ≠ [] := by
    intro e
    have := h.start.two
    rw [List.map_eq_nil_iff.1 e] at this
    simp at this
  obtain ⟨p, hp, hle, hc⟩ := choose_general h.auto h.noOpt (enL := enL) (relL := []) (absL := []) hne
    (fun p _ => (hz p.1).ge) (f := fun p => coolTol cfg / (b * p.1)) (fun p hp => by
      obtain ⟨x, hx, rfl⟩ := List.mem_map.1 hp
      rw [he, he, hz]
      exact maxTimeBin_cool hm hb (hinv x hx).pos (h.wf.thresholds h.auto).1 (h.wf.thresholds h.auto).2.1)
  obtain ⟨x0, hx0, rfl⟩ := List.mem_map.1 hp
  have hy0 := (hinv x0 hx0).pos
  set dt := coolTol cfg / (b * (S x0).1) with hdt
  have hdt0 : 0 < dt := by positivity
  have hres : ∀ x ∈ cfg.initialGamma, b * (S x).1 * dt ≤ coolTol cfg := by
    intro x hx
    have h1 := hle _ (List.mem_map.2 ⟨x, hx, rfl⟩)
    have h2 := (hinv x hx).pos
    rw [le_div_iff₀ (by positivity)] at h1
    linarith
  set t := min dt (cfg.totalTime - el) with htdef
  have htpos : 0 < t := lt_min hdt0 (by linarith)
  have hres' : ∀ x ∈ cfg.initialGamma, b * (S x).1 * t ≤ coolTol cfg := by
    intro x hx
    have h2 := (hinv x hx).pos
    refine le_trans ?_ (hres x hx)
    have : t ≤ dt := min_le_left _ _
    gcongr
  have hnext : ∀ x ∈ cfg.initialGamma, CoolInv b (coolTol cfg) (el + t) x (dist.eval x) (quadBin b t (S x)) := fun x hx =>
    (hinv x hx).next hb (h.wf.gammaPos x hx) (h.start.nonneg x hx) h0 htpos.le ht1 (hres' x hx)
  have hord' : cfg.initialGamma.Pairwise fun x y => (quadBin b t (S x)).1 < (quadBin b t (S y)).1 := by
    refine hord.imp_of_mem ?_
    intro x y hx hy hxy
    refine quad_order hb.le htpos.le (hinv x hx).pos hxy ?_
    have := hres' y hy
    linarith
  have hst : ∀ x ∈ cfg.initialGamma, eulerBin cfg.mec2 (fun g => -(b * cfg.mec2 * g ^ 2)) (fun _ => 0) (fun _ => 0) t (S x)
      = quadBin b t (S x) := fun x hx => quad_step (x := (S x).1) hm (hinv x hx).pos
  have hsm : Smooth (withStep cfg dt) (rateSum enL) (rateSum []) (rateSum []) t (cfg.initialGamma.map S) := by
    rw [hrate, hz']
    show Smooth (withStep cfg dt) _ _ _ _ _
    refine ⟨?_, ?_, ?_, ?_, ?_, ?_⟩
    · simp only [List.mem_map]
      rintro p ⟨x, hx, rfl⟩
      show 0 < (eulerBin cfg.mec2 _ _ _ _ _).1
      rw [hst x hx]
      exact (hnext x hx).pos
    · simp only [List.mem_map]
      rintro p ⟨x, hx, rfl⟩
      show 0 < (S x).1 / 10000 + (-(b * cfg.mec2 * ((S x).1 * (1 + 1 / 10000)) ^ 2) - -(b * cfg.mec2 * (S x).1 ^ 2)) * t
        / cfg.mec2
      have hy := (hinv x hx).pos
      have hq := hres' x hx
      set y := (S x).1
      have : y / 10000 + (-(b * cfg.mec2 * (y * (1 + 1 / 10000)) ^ 2) - -(b * cfg.mec2 * y ^ 2)) * t / cfg.mec2
          = y / 10000 * (1 - 2.0001 * (b * y * t)) := by field_simp; ring
      rw [this]
      exact mul_pos (by positivity) (by linarith)
    · simp only [List.mem_map]
      rintro p ⟨x, hx, rfl⟩
      show 0 ≤ (eulerBin cfg.mec2 _ _ _ _ _).2
      rw [hst x hx]
      refine le_trans ?_ (hnext x hx).dens
      have := h.start.nonneg x hx
      positivity
    · show List.Pairwise _ ((cfg.initialGamma.map S).map fun p => cfg.num.log10 (eulerBin cfg.mec2 _ _ _ t p).1)
      rw [List.pairwise_map, List.pairwise_map]
      refine hord'.imp_of_mem ?_
      intro x y hx hy hxy
      rw [hst x hx, hst y hy, h.num]
      exact realLog_strict _ _ (hnext x hx).pos hxy
    · intro thr hthr
      have : cfg.mergeCloser = some thr := hthr
      rw [h.noMerge] at this
      simp at this
    · right
      rw [List.filter_map, List.length_map]
      refine filter_pos_length (f := dist.eval) ?_ h.start.interp
      intro x hx h0'
      show (eulerBin cfg.mec2 _ _ _ _ _).2 ≠ 0
      rw [hst x hx]
      have i1 := hnext x hx
      have hx0 := h.wf.gammaPos x hx
      have := i1.pos
      exact ne_of_gt (lt_of_lt_of_le (by positivity) i1.dens)
  have hlen : 2 ≤ (cfg.initialGamma.map S).length := by simpa using h.start.two
  obtain ⟨d', hstep⟩ := step_local (hl dt).local (hl dt).euler (el := el) (tl := tl) (dist := d) (t := t) rfl
    (hsm.binOK (hl dt).wf.mec2) (hsm.gridOK (hl dt).wf.mec2 hlen)
  rw [← step_withStep (hl dt).local hc] at hstep
  refine ⟨_, hstep, ⟨fun x => quadBin b t (S x), el + t, tl, d', ?_, by linarith, ?_, hnext, hord'⟩, ?_⟩
  · congr 1
    rw [List.map_map]
    refine List.map_congr_left fun x hx => ?_
    rw [← hst x hx]
    show moveBin cfg.mec2 (totalOf enL) (totalOf []) (totalOf []) t (S x) = _
    rw [eulerBin_eq hm]
    have e1 : totalOf enL = fun g => -(b * cfg.mec2 * g ^ 2) := funext he
    have e2 : totalOf ([] : List (String × (ℝ → ℝ))) = fun _ => 0 := funext hz
    rw [e1, e2]
  · have : t ≤ cfg.totalTime - el := min_le_right _ _
    linarith
  · show cfg.totalTime ≤ el + t ∨ el + _ ≤ el + t
    rcases min_choice dt (cfg.totalTime - el) with e | e
    · right
      have hle0 : (S x0).1 ≤ M := (hinv x0 hx0).le.trans (hM x0 hx0)
      have : coolTol cfg / (b * M) ≤ dt := by
        rw [hdt]
        gcongr
      rw [htdef, e]
      linarith
    · left
      rw [htdef, e]
      linarith

theorem cool_loop {k : Consts} {cfg : Cfg ℝ} {B : ℝ} {dist : Dist ℝ} (h : AutoSynchRun k cfg B dist) {name : String}
    (hl : ∀ dt, LocalRates (withStep cfg dt) [(name, fun g => -(coolingRate k B * cfg.mec2 * g ^ 2))] [] [] dt) {M : ℝ}
    (hM : ∀ x ∈ cfg.initialGamma, x ≤ M) (n : ℕ) : ∀ s, CoolState cfg name (coolingRate k B) dist s →
    cfg.totalTime ≤ s.elapsed + n * (coolTol cfg / (coolingRate k B * M)) → ∃ s', loop cfg n s = .ok (some s') := by
  induction n with
  | zero =>
    intro s _ hT
    refine ⟨s, ?_⟩
    have : ¬ s.elapsed < cfg.totalTime := by
      rw [Nat.cast_zero, zero_mul, add_zero] at hT
      exact hT.not_gt
    simp [loop, this]
  | succ n ih =>
    intro s hs hT
    by_cases hlt : s.elapsed < cfg.totalTime
    · obtain ⟨s', hst, hs', hor⟩ := cool_step h hl hM hs hlt
      rw [loop, if_pos hlt, hst]
      refine ih s' hs' ?_
      rcases hor with e | e
      · refine e.trans (le_add_of_nonneg_right ?_)
        have := h.rate
        have := h.tol.1
        have hM0 : 0 < M := by
          obtain ⟨x, hx⟩ : ∃ x, x ∈ cfg.initialGamma := by
            have := h.start.two
            match hg : cfg.initialGamma with
            | [] => rw [hg] at this; simp at this
            | x :: _ => exact ⟨x, by simp⟩
          exact (h.wf.gammaPos x hx).trans_le (hM x hx)
        positivity
      · push_cast at hT
        linarith
    · exact ⟨s, by rw [loop, if_neg hlt]⟩

/-- **C120**: with automatic steps synchrotron cooling returns, for every field, grid and total time, and keeps every bin; at
the end and at every callback the bin that started at `x` lies between the exact solutions `x / (1 + b x t)` at the times
`t / (1 - τ)` and `t`, `τ` depending on the thresholds alone, and its density is at least that of `n γ² = const`. -/
theorem C120_auto_cooling {k : Consts} {cfg : Cfg ℝ} {B : ℝ} {dist : Dist ℝ} (h : AutoSynchRun k cfg B dist) :
    (∃ r d, Returns cfg dist r d) ∧
    (∀ r d, Returns cfg dist r d → ∃ S : ℝ → ℝ × ℝ, r.gamma = cfg.initialGamma.map (fun x => (S x).1) ∧
      r.density = cfg.initialGamma.map (fun x => (S x).2) ∧
      ∀ x ∈ cfg.initialGamma, CoolInv (coolingRate k B) (coolTol cfg) cfg.totalTime x (dist.eval x) (S x)) ∧
    (∀ j c, KthCallback cfg dist j c → ∃ S : ℝ → ℝ × ℝ, c.gamma = cfg.initialGamma.map (fun x => (S x).1) ∧
      c.density = cfg.initialGamma.map (fun x => (S x).2) ∧
      ∀ x ∈ cfg.initialGamma, CoolInv (coolingRate k B) (coolTol cfg) c.totalTime x (dist.eval x) (S x)) := by
  obtain ⟨name, hl⟩ := h.localRates
  obtain ⟨M, hM⟩ := (List.finite_toSet cfg.initialGamma).bddAbove
  have hM : ∀ x ∈ cfg.initialGamma, x ≤ M := fun x hx => hM hx
  have hstart : ∃ s, initState cfg dist = .ok s ∧ CoolState cfg name (coolingRate k B) dist s := by
    have e := initState_local (hl 1).local (dist := dist)
    refine ⟨_, e, fun x => (x, dist.eval x), 0, _, _, rfl, le_rfl, h.timepos, fun x hx => ?_, h.wf.gammaSorted⟩
    exact CoolInv.start (h.wf.gammaPos x hx)
  have hreach : ∀ s, Reach cfg dist s → CoolState cfg name (coolingRate k B) dist s := by
    intro s hs
    induction hs with
    | init h0 =>
      obtain ⟨s0, e, hs0⟩ := hstart
      rw [e] at h0
      obtain rfl := Except.ok.inj h0
      exact hs0
    | step _ hg hs ih =>
      obtain ⟨s', e, hs', -⟩ := cool_step h hl hM ih hg
      rw [e] at hs
      obtain rfl := Except.ok.inj hs
      exact hs'
  refine ⟨?_, fun r d hr => ?_, fun j c hc => ?_⟩
  · obtain ⟨s0, e, hs0⟩ := hstart
    have hpos : 0 < coolTol cfg / (coolingRate k B * M) := by
      have := h.rate
      have := h.tol.1
      obtain ⟨x, hx⟩ : ∃ x, x ∈ cfg.initialGamma := by
        have := h.start.two
        match hg : cfg.initialGamma with
        | [] => rw [hg] at this; simp at this
        | x :: _ => exact ⟨x, by simp⟩
      have := (h.wf.gammaPos x hx).trans_le (hM x hx)
      positivity
    obtain ⟨n, hn⟩ := exists_nat_ge ((cfg.totalTime - s0.elapsed) / (coolTol cfg / (coolingRate k B * M)))
    rw [div_le_iff₀ hpos] at hn
    obtain ⟨s', hs'⟩ := cool_loop h hl hM n s0 hs0 (by linarith)
    refine ⟨_, _, n, s', ?_, rfl, rfl⟩
    unfold evaluate
    rw [e]
    exact hs'
  · obtain ⟨s, hs, hend, rfl, rfl⟩ := returns_reach hr
    obtain ⟨S, el, tl, d, rfl, h0, hT, hinv, -⟩ := hreach s hs
    have : el = cfg.totalTime := le_antisymm hT (not_lt.1 hend)
    subst this
    refine ⟨S, ?_, ?_, hinv⟩ <;> simp [resultOf, localState, Function.comp_def]
  · obtain ⟨s, hs, -, rfl⟩ := hc
    obtain ⟨S, el, tl, d, rfl, h0, hT, hinv, -⟩ := hreach s (reach_of_reachN hs)
    refine ⟨S, ?_, ?_, hinv⟩ <;> simp [callbackOf, localState, Function.comp_def]

/-- **C120**: as the thresholds are lowered, the automatic run tends to the exact solution -/
theorem C120_limit {k : Consts} {B T : ℝ} {dist : Dist ℝ} {g0 : List ℝ} (cfg : ℕ → Cfg ℝ)
    (h : ∀ N, AutoSynchRun k (cfg N) B dist) (hg : ∀ N, (cfg N).initialGamma = g0) (hT : ∀ N, (cfg N).totalTime = T)
    (hτ : Tendsto (fun N => coolTol (cfg N)) atTop (𝓝 0)) {r : ℕ → Result ℝ} {d : ℕ → Dist ℝ}
    (hr : ∀ N, Returns (cfg N) dist (r N) (d N)) :
    ∃ G : ℕ → ℝ → ℝ, (∀ N, (r N).gamma = g0.map (G N)) ∧
      ∀ x ∈ g0, Tendsto (fun N => G N x) atTop (𝓝 (x / (1 + coolingRate k B * x * T))) := by
  choose S e1 e2 hS using fun N => (C120_auto_cooling (h N)).2.1 _ _ (hr N)
  refine ⟨fun N x => (S N x).1, fun N => by rw [e1, hg], fun x hx => ?_⟩
  have hx' : ∀ N, x ∈ (cfg N).initialGamma := fun N => by rw [hg]; exact hx
  have hx0 := (h 0).wf.gammaPos x (hx' 0)
  have hb := (h 0).rate
  have hT0 : 0 ≤ T := hT 0 ▸ (h 0).timepos
  have h1 : Tendsto (fun N => T / (1 - coolTol (cfg N))) atTop (𝓝 (T / (1 - 0))) :=
    tendsto_const_nhds.div (hτ.const_sub 1) (by norm_num)
  rw [sub_zero, div_one] at h1
  have h2 : Tendsto (fun N => x / (1 + coolingRate k B * x * (T / (1 - coolTol (cfg N))))) atTop
      (𝓝 (x / (1 + coolingRate k B * x * T))) :=
    tendsto_const_nhds.div ((h1.const_mul _).const_add 1) (by positivity)
  refine tendsto_of_tendsto_of_tendsto_of_le_of_le h2 tendsto_const_nhds (fun N => ?_) fun N => ?_
  · have := (hS N x (hx' N)).lower
    rwa [hT N] at this
  · have := (hS N x (hx' N)).upper
    rwa [hT N] at this

/-! ### the hypotheses can be met -/

example {k : Consts} (hk : k.Pos) {T : ℝ} (hT : 0 < T) : AutoSynchRun k
    { physCfg k (synchrotronLoss k 2) 1 T with stepDuration := .auto } 2 physDist := by
  have hs := physCfg_start k (synchrotronLoss k 2) 1 T
  exact ⟨hk, { physCfg_wf hk (synchrotronLoss k 2) 1 T with
    thresholds := by simp [physCfg]
    optAuto := fun _ => rfl }, rfl, rfl, ⟨"f", rfl⟩, rfl, rfl, rfl, rfl, rfl, rfl, rfl, rfl,
    ⟨hs.two, hs.order, hs.apart, hs.nonneg, hs.interp⟩, by norm_num, hT.le⟩

end Verif.TE
