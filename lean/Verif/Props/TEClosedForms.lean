import Verif.Props.TEEuler

/-
C71: rates proportional to the Lorentz factor (`fermi_acceleration`): closed form.
C72: quadratic losses (`synchrotron_loss`): two-sided bounds by the analytic solution.
C73: injection and escape: closed forms.
-/

namespace Verif.TE

open Verif.Np

set_option linter.unusedSectionVars false

variable {K : Type} [Field K] [LinearOrder K] [IsStrictOrderedRing K]

/-- the initial data: two or more bins, with `log10` values in order and further apart than the merging threshold,
densities not negative and at least two of them positive -/
structure CleanStart (cfg : Cfg K) (dist : Dist K) : Prop where
  two : 2 ≤ cfg.initialGamma.length
  order : (cfg.initialGamma.map cfg.num.log10).Pairwise (· < ·)
  apart : ∀ thr, cfg.mergeCloser = some thr → ∀ j, j + 1 < cfg.initialGamma.length →
    thr ≤ cfg.num.log10 (cfg.initialGamma.getD (j + 1) 0) - cfg.num.log10 (cfg.initialGamma.getD j 0)
  nonneg : ∀ x ∈ cfg.initialGamma, 0 ≤ dist.eval x
  interp : 2 ≤ (cfg.initialGamma.filter fun x => decide (0 < dist.eval x)).length

/-- length of the `k`-th step -/
def stepLen (dt T : K) (k : Nat) : K := min dt (T - k * dt)

theorem stepLen_pos {dt T : K} (hp : 0 < dt) {k : Nat} (h : (k : K) * dt < T) : 0 < stepLen dt T k :=
  lt_min hp (by linarith)

theorem stepLen_le (dt T : K) (k : Nat) : stepLen dt T k ≤ dt := min_le_left _ _

/-- time after `k` steps -/
theorem min_succ {dt T : K} {k : Nat} (h : (k : K) * dt < T) :
    min (((k + 1 : ℕ) : K) * dt) T = min ((k : K) * dt) T + stepLen dt T k := by
  rw [min_eq_left h.le, stepLen, ← min_add_add_left]
  congr 1
  · push_cast; ring
  · ring

theorem filter_pos_length {α : Type} {l : List α} {f g : α → K} (h : ∀ x ∈ l, 0 < f x → g x ≠ 0)
    {n : Nat} (hn : n ≤ (l.filter fun x => decide (0 < f x)).length) :
    n ≤ (l.filter fun x => decide (g x ≠ 0)).length := by
  refine le_trans hn (List.Sublist.length_le ?_)
  have : (l.filter fun x => decide (0 < f x))
      = (l.filter fun x => decide (g x ≠ 0)).filter fun x => decide (0 < f x) := by
    rw [List.filter_filter]
    apply List.filter_congr
    intro x hx
    by_cases h0 : 0 < f x
    · simp [h0, h x hx h0]
    · simp [h0]
  rw [this]
  exact List.filter_sublist

theorem getD_map_pair {l : List K} {f : K → K × K} {j : Nat} (hj : j < l.length) :
    (l.map f).getD j (0, 0) = f (l.getD j 0) := by
  rw [List.getD_eq_getElem _ _ (by simpa using hj), List.getD_eq_getElem _ _ hj, List.getElem_map]

/-! ### C71 -/

/-- the logarithm of a product, as for the real logarithm -/
def LogLaw (num : Numerics K) : Prop := ∀ c x : K, 0 < c → 0 < x → num.log10 (c * x) = num.log10 c + num.log10 x

/-- growth factor after `k` steps at the relative rate `a` per second: `1 + a t` for each step -/
def growth (a dt T : K) : Nat → K
  | 0 => 1
  | k + 1 => growth a dt T k * (1 + a * stepLen dt T k)

theorem factor_pos {a dt T : K} (hp : 0 < dt) (ha : 0 < 1 + a * dt) {k : Nat} (h : (k : K) * dt < T) :
    0 < 1 + a * stepLen dt T k := by
  have h1 := stepLen_pos hp h
  have h2 := stepLen_le dt T k
  rcases le_or_gt 0 a with h0 | h0
  · have := mul_nonneg h0 h1.le; linarith
  · have := mul_le_mul_of_nonpos_left h2 h0.le; linarith

theorem growth_pow {a dt T : K} {k : Nat} (h : (k : K) * dt ≤ T) (hp : 0 < dt) :
    growth a dt T k = (1 + a * dt) ^ k := by
  induction k with
  | zero => simp [growth]
  | succ k ih =>
    push_cast at h
    rw [growth, ih (by nlinarith), pow_succ, stepLen, min_eq_left (by linarith)]

theorem linear_step {mec2 a t : K} (hm : 0 < mec2) {x n : K} (hx : 0 < x) (ha : 0 < 1 + a * t) :
    eulerBin mec2 (fun g => a * (g * mec2)) (fun _ => 0) (fun _ => 0) t (x, n)
      = (x * (1 + a * t), n / (1 + a * t)) := by
  have hm' := ne_of_gt hm
  have hx' := ne_of_gt hx
  have ha' := ne_of_gt ha
  unfold eulerBin
  refine Prod.ext ?_ ?_
  · simp only; field_simp
  · simp only
    have : x / 10000 + (a * (x * (1 + 1 / 10000) * mec2) - a * (x * mec2)) * t / mec2
        = x / 10000 * (1 + a * t) := by field_simp; ring
    rw [this]
    field_simp
    ring

theorem linear_run {mec2 a dt T : K} (hm : 0 < mec2) (hp : 0 < dt) (ha : 0 < 1 + a * dt) {l : List K}
    (hl : ∀ x ∈ l, 0 < x) (f : K → K) (k : Nat) (hk : ∀ i, i < k → (i : K) * dt < T) :
    0 < growth a dt T k ∧
    eulerRun (eulerBin mec2 (fun g => a * (g * mec2)) (fun _ => 0) (fun _ => 0)) dt T
      (l.map fun x => (x, f x)) k
      = l.map fun x => (x * growth a dt T k, f x / growth a dt T k) := by
  induction k with
  | zero => simp [eulerRun, growth]
  | succ k ih =>
    obtain ⟨hg, e⟩ := ih (fun i hi => hk i (by omega))
    have hf := factor_pos hp ha (hk k (by omega))
    refine ⟨mul_pos hg hf, ?_⟩
    rw [eulerRun, e, List.map_map]
    apply List.map_congr_left
    intro x hx
    simp only [Function.comp_def]
    have := linear_step (n := f x / growth a dt T k) hm (mul_pos (hl x hx) hg) hf
    unfold stepLen at this
    rw [this]
    simp only [growth, stepLen, Prod.mk.injEq]
    exact ⟨by ring, by rw [div_div]⟩

theorem linear_smooth {cfg : Cfg K} {name : String} {a dt : K}
    (h : LocalRates cfg [(name, fun g => a * (g * cfg.mec2))] [] [] dt) (hp : 0 < dt)
    (hlog : LogLaw cfg.num) (ha : 0 < 1 + a * dt) {dist : Dist K} (hc : CleanStart cfg dist) :
    ∀ k : ℕ, (k : K) * dt < cfg.totalTime → Smooth cfg (rateSum [(name, fun g => a * (g * cfg.mec2))]) (rateSum [])
      (rateSum []) (min dt (cfg.totalTime - k * dt))
      (eulerRun (eulerBin cfg.mec2 (rateSum [(name, fun g => a * (g * cfg.mec2))]) (rateSum []) (rateSum [])) dt
        cfg.totalTime (startPairs cfg dist) k) := by
  have hm := h.wf.mec2
  have hrate : rateSum [(name, fun g => a * (g * cfg.mec2))] = fun g => a * (g * cfg.mec2) := by
    funext g; simp [rateSum]
  have hz : rateSum ([] : List (String × (K → K))) = fun _ => 0 := by funext g; simp [rateSum]
  have hrun := fun k hk => linear_run (T := cfg.totalTime) hm hp ha h.wf.gammaPos dist.eval k hk
  have hprev : ∀ k : Nat, (k : K) * dt < cfg.totalTime → ∀ i, i < k → (i : K) * dt < cfg.totalTime := by
    intro k hk i hi
    have : (i : K) < k := by exact_mod_cast hi
    nlinarith
  intro k hk
  rw [hrate, hz]
  obtain ⟨hg, e⟩ := hrun k (hprev k hk)
  have hf : 0 < 1 + a * min dt (cfg.totalTime - k * dt) := factor_pos hp ha hk
  unfold startPairs
  rw [e]
  have hst : ∀ x ∈ cfg.initialGamma, eulerBin cfg.mec2 (fun g => a * (g * cfg.mec2)) (fun _ => 0) (fun _ => 0)
      (min dt (cfg.totalTime - k * dt)) (x * growth a dt cfg.totalTime k, dist.eval x / growth a dt cfg.totalTime k)
      = (x * growth a dt cfg.totalTime k * (1 + a * min dt (cfg.totalTime - k * dt)),
        dist.eval x / growth a dt cfg.totalTime k / (1 + a * min dt (cfg.totalTime - k * dt))) :=
    fun x hx => linear_step hm (mul_pos (h.wf.gammaPos x hx) hg) hf
  set q := 1 + a * min dt (cfg.totalTime - k * dt) with hq
  set g := growth a dt cfg.totalTime k with hgdef
  have hlg : ∀ x ∈ cfg.initialGamma, cfg.num.log10 (x * g * q) = cfg.num.log10 (g * q) + cfg.num.log10 x := by
    intro x hx
    rw [← hlog _ _ (mul_pos hg hf) (h.wf.gammaPos x hx)]
    congr 1; ring
  refine ⟨?_, ?_, ?_, ?_, ?_, ?_⟩
  · simp only [List.mem_map]
    rintro p ⟨x, hx, rfl⟩
    rw [hst x hx]
    exact mul_pos (mul_pos (h.wf.gammaPos x hx) hg) hf
  · simp only [List.mem_map]
    rintro p ⟨x, hx, rfl⟩
    have hx0 := h.wf.gammaPos x hx
    have hm' := ne_of_gt hm
    have : (x * g) / 10000 + (a * (x * g * (1 + 1 / 10000) * cfg.mec2) - a * (x * g * cfg.mec2))
        * min dt (cfg.totalTime - k * dt) / cfg.mec2 = x * g / 10000 * q := by
      rw [hq]; field_simp; ring
    simp only
    rw [this]
    positivity
  · simp only [List.mem_map]
    rintro p ⟨x, hx, rfl⟩
    rw [hst x hx]
    have := hc.nonneg x hx
    positivity
  · rw [List.map_map]
    have : cfg.initialGamma.map ((fun p => cfg.num.log10 (eulerBin cfg.mec2 (fun g => a * (g * cfg.mec2))
        (fun _ => 0) (fun _ => 0) (min dt (cfg.totalTime - k * dt)) p).1) ∘ fun x => (x * g, dist.eval x / g))
        = (cfg.initialGamma.map cfg.num.log10).map (cfg.num.log10 (g * q) + ·) := by
      rw [List.map_map]
      apply List.map_congr_left
      intro x hx
      simp only [Function.comp_def]
      rw [hst x hx]
      exact hlg x hx
    rw [this, List.pairwise_map]
    exact hc.order.imp (fun hab => by linarith)
  · intro thr hthr j hj
    rw [List.length_map] at hj
    have hj' : j < cfg.initialGamma.length := by omega
    rw [getD_map_pair hj, getD_map_pair hj', hst _ (getD_mem hj), hst _ (getD_mem hj'), hlg _ (getD_mem hj),
      hlg _ (getD_mem hj')]
    have := hc.apart thr hthr j hj
    linarith
  · right
    rw [List.filter_map, List.length_map]
    refine filter_pos_length (f := dist.eval) ?_ hc.interp
    intro x hx h0
    simp only
    rw [hst x hx]
    positivity

/-- A single energy-change function proportional to the Lorentz factor, `a·γ·mec²` erg/s (`fermi_acceleration(t_acc)`
is `a = 1/t_acc`; adiabatic losses are `a < 0`), nothing else, `1 + a·dt > 0`: the evolution does not raise; after
`k` steps every Lorentz factor has been multiplied and every density divided by the product of the factors
`1 + a·t` of the steps, which is `(1 + a·dt)^k` as long as no step is cut. -/
theorem C71_linear_rate [FloorSemiring K] {cfg : Cfg K} {name : String} {a dt : K}
    (h : LocalRates cfg [(name, fun g => a * (g * cfg.mec2))] [] [] dt) (hp : 0 < dt)
    (hlog : LogLaw cfg.num) (ha : 0 < 1 + a * dt) {dist : Dist K} (hc : CleanStart cfg dist) :
    (∃ r d, Returns cfg dist r d) ∧
    (∀ r d, Returns cfg dist r d →
      r.gamma = cfg.initialGamma.map (· * growth a dt cfg.totalTime ⌈cfg.totalTime / dt⌉₊) ∧
      r.density = cfg.initialGamma.map (fun x => dist.eval x / growth a dt cfg.totalTime ⌈cfg.totalTime / dt⌉₊)) ∧
    (∀ k c, KthCallback cfg dist k c →
      c.gamma = cfg.initialGamma.map (· * growth a dt cfg.totalTime k) ∧
      c.density = cfg.initialGamma.map (fun x => dist.eval x / growth a dt cfg.totalTime k)) ∧
    ∀ k : Nat, (k : K) * dt ≤ cfg.totalTime → growth a dt cfg.totalTime k = (1 + a * dt) ^ k := by
  have hm := h.wf.mec2
  have hrate : rateSum [(name, fun g => a * (g * cfg.mec2))] = fun g => a * (g * cfg.mec2) := by
    funext g; simp [rateSum]
  have hz : rateSum ([] : List (String × (K → K))) = fun _ => 0 := by funext g; simp [rateSum]
  have hrun := fun k hk => linear_run (T := cfg.totalTime) hm hp ha h.wf.gammaPos dist.eval k hk
  have hprev : ∀ k : Nat, (k : K) * dt < cfg.totalTime → ∀ i, i < k → (i : K) * dt < cfg.totalTime := by
    intro k hk i hi
    have : (i : K) < k := by exact_mod_cast hi
    nlinarith
  have main := C70_euler_run h hp hc.two (dist := dist) rfl (linear_smooth h hp hlog ha hc)
  rw [hrate, hz] at main
  obtain ⟨m1, m2, m3⟩ := main
  refine ⟨m1, ?_, ?_, fun k hk => growth_pow hk hp⟩
  · intro r d hr
    obtain ⟨e1, e2, -⟩ := m2 r d hr
    have hN : ∀ i, i < ⌈cfg.totalTime / dt⌉₊ → (i : K) * dt < cfg.totalTime := by
      intro i hi
      have : (i : K) < cfg.totalTime / dt := Nat.lt_ceil.1 hi
      rwa [lt_div_iff₀ hp] at this
    obtain ⟨-, e⟩ := hrun _ hN
    unfold startPairs at e1 e2
    rw [e] at e1 e2
    rw [e1, e2]
    simp [Function.comp_def]
  · intro k c hcb
    obtain ⟨-, hkN⟩ := C02_callback_times h.fixed hp hcb
    have hk0 : 0 < k := by obtain ⟨s, -, h0, -⟩ := hcb; exact h0
    obtain ⟨e1, e2⟩ := (m3 k hk0 hkN).2 c hcb
    have hN : ∀ i, i < k → (i : K) * dt < cfg.totalTime := by
      intro i hi
      have : (i : K) < cfg.totalTime / dt := Nat.lt_ceil.1 (lt_of_lt_of_le hi hkN)
      rwa [lt_div_iff₀ hp] at this
    obtain ⟨-, e⟩ := hrun _ hN
    unfold startPairs at e1 e2
    rw [e] at e1 e2
    rw [e1, e2]
    simp [Function.comp_def]

/-! ### C72 -/

theorem quad_step {mec2 B t : K} (hm : 0 < mec2) {x n : K} (hx : 0 < x) :
    eulerBin mec2 (fun g => -(B * mec2 * g ^ 2)) (fun _ => 0) (fun _ => 0) t (x, n)
      = (x * (1 - B * x * t), n / (1 - 2.0001 * (B * x * t))) := by
  have hm' := ne_of_gt hm
  have hx' := ne_of_gt hx
  unfold eulerBin
  refine Prod.ext ?_ ?_
  · simp only; field_simp; ring
  · simp only
    have : x / 10000 + (-(B * mec2 * (x * (1 + 1 / 10000)) ^ 2) - -(B * mec2 * x ^ 2)) * t / mec2
        = x / 10000 * (1 - 2.0001 * (B * x * t)) := by field_simp; ring
    rw [this, mul_zero, zero_add, zero_mul, add_zero, mul_comm n, mul_div_mul_left _ _ (by positivity)]

/-- one bin under quadratic losses -/
def quadBin (B t : K) (p : K × K) : K × K := (p.1 * (1 - B * p.1 * t), p.2 / (1 - 2.0001 * (B * p.1 * t)))

/-- the pair after `k` steps -/
def quadSeq (B dt T : K) (p : K × K) : Nat → K × K
  | 0 => p
  | k + 1 => quadBin B (stepLen dt T k) (quadSeq B dt T p k)

/-- what is known of a bin that started from `(x, n)` after the time `t` -/
structure QuadInv (B dt t x n : K) (q : K × K) : Prop where
  pos : 0 < q.1
  le : q.1 ≤ x
  upper : q.1 ≤ x / (1 + B * x * t)
  lower : x / (1 + B * x * t / (1 - B * x * dt)) ≤ q.1
  dens : n * (x / q.1) ^ 2 ≤ q.2

theorem quad_inv {B dt T x n : K} (hB : 0 ≤ B) (hp : 0 < dt) (hx : 0 < x) (hn : 0 ≤ n)
    (hs : 2.0001 * (B * x * dt) < 1) (k : Nat) (hk : ∀ i, i < k → (i : K) * dt < T) (hT : 0 ≤ T) :
    QuadInv B dt (min (k * dt) T) x n (quadSeq B dt T (x, n) k) := by
  have hz : 0 ≤ B * x * dt := by positivity
  have hw : 0 < 1 - B * x * dt := by linarith
  induction k with
  | zero =>
    have : min (((0 : ℕ) : K) * dt) T = 0 := by simp [hT]
    rw [this]
    refine ⟨hx, le_rfl, by simp [quadSeq], by simp [quadSeq], by simp [quadSeq, ne_of_gt hx]⟩
  | succ k ih =>
    have hlt := hk k (by omega)
    obtain ⟨h1, h2, h3, h4, h5⟩ := ih (fun i hi => hk i (by omega))
    rw [min_succ hlt]
    have ht := stepLen_pos hp hlt
    have htd := stepLen_le dt T k
    rw [quadSeq]
    set t := stepLen dt T k
    set τ := min ((k : K) * dt) T with hτ
    have hτ0 : 0 ≤ τ := le_min (by positivity) hT
    generalize quadSeq B dt T (x, n) k = q at h1 h2 h3 h4 h5 ⊢
    obtain ⟨y, m⟩ := q
    change 0 < y at h1
    change y ≤ x at h2
    change y ≤ _ at h3
    change _ ≤ y at h4
    change n * (x / y) ^ 2 ≤ m at h5
    have hq : B * y * t ≤ B * x * dt := by gcongr
    have hq0 : 0 ≤ B * y * t := by positivity
    have h1q : 0 < 1 - B * y * t := by linarith
    have h2q : 0 < 1 - 2.0001 * (B * y * t) := by linarith
    have hy' : 0 < y * (1 - B * y * t) := mul_pos h1 h1q
    refine ⟨hy', ?_, ?_, ?_, ?_⟩
    · show y * (1 - B * y * t) ≤ x
      nlinarith
    · show y * (1 - B * y * t) ≤ x / (1 + B * x * (τ + t))
      rw [le_div_iff₀ (by positivity)] at h3 ⊢
      -- y (1 + B x τ) ≤ x
      have e : y * (1 - B * y * t) * (1 + B * x * (τ + t))
          = (1 - B * y * t) * (y * (1 + B * x * τ)) + (1 - B * y * t) * (B * y * t) * x := by ring
      rw [e]
      nlinarith [mul_le_mul_of_nonneg_left h3 h1q.le, mul_nonneg (mul_nonneg hq0 hq0) hx.le]
    · show x / (1 + B * x * (τ + t) / (1 - B * x * dt)) ≤ y * (1 - B * y * t)
      rw [div_le_iff₀ (by positivity)] at h4 ⊢
      -- x ≤ y (1 + B x τ / w)
      have e : y * (1 - B * y * t) * (1 + B * x * (τ + t) / (1 - B * x * dt))
          = (1 - B * y * t) * (y * (1 + B * x * τ / (1 - B * x * dt)))
            + x * (B * y * t) * ((1 - B * y * t) / (1 - B * x * dt)) := by
        field_simp; ring
      rw [e]
      have h6 : 1 ≤ (1 - B * y * t) / (1 - B * x * dt) := by rw [one_le_div hw]; linarith
      nlinarith [mul_le_mul_of_nonneg_left h4 h1q.le, mul_le_mul_of_nonneg_left h6 (mul_nonneg hx.le hq0)]
    · show n * (x / (y * (1 - B * y * t))) ^ 2 ≤ m / (1 - 2.0001 * (B * y * t))
      have e : n * (x / (y * (1 - B * y * t))) ^ 2 = n * (x / y) ^ 2 / (1 - B * y * t) ^ 2 := by
        field_simp
      rw [e]
      have hm : 0 ≤ n * (x / y) ^ 2 := by positivity
      apply div_le_div₀ (le_trans hm h5) h5 h2q
      nlinarith [sq_nonneg (B * y * t)]

theorem quad_run {mec2 B dt T : K} (hm : 0 < mec2) (hB : 0 ≤ B) (hp : 0 < dt) (hT : 0 ≤ T) {l : List K}
    (hl : ∀ x ∈ l, 0 < x) (hs : ∀ x ∈ l, 2.0001 * (B * x * dt) < 1) {f : K → K} (hf : ∀ x ∈ l, 0 ≤ f x)
    (k : Nat) (hk : ∀ i, i < k → (i : K) * dt < T) :
    eulerRun (eulerBin mec2 (fun g => -(B * mec2 * g ^ 2)) (fun _ => 0) (fun _ => 0)) dt T
      (l.map fun x => (x, f x)) k = l.map fun x => quadSeq B dt T (x, f x) k := by
  induction k with
  | zero => rfl
  | succ k ih =>
    rw [eulerRun, ih (fun i hi => hk i (by omega)), List.map_map]
    apply List.map_congr_left
    intro x hx
    have h0 := (quad_inv hB hp (hl x hx) (hf x hx) (hs x hx) k (fun i hi => hk i (by omega)) hT).pos
    exact quad_step (x := (quadSeq B dt T (x, f x) k).1) hm h0

theorem quad_order {B t x y : K} (hB : 0 ≤ B) (ht : 0 ≤ t) (hx : 0 < x) (hxy : x < y)
    (hs : 2.0001 * (B * y * t) < 1) : x * (1 - B * x * t) < y * (1 - B * y * t) := by
  have h1 : B * x * t ≤ B * y * t := by gcongr
  have h2 : 0 ≤ B * x * t := by positivity
  nlinarith [mul_pos (sub_pos.2 hxy) (show 0 < 1 - B * x * t - B * y * t by linarith)]

theorem quad_pairwise {B dt T : K} (hB : 0 ≤ B) (hp : 0 < dt) (hT : 0 ≤ T) {l : List K}
    (hl : ∀ x ∈ l, 0 < x) (hs : ∀ x ∈ l, 2.0001 * (B * x * dt) < 1) {f : K → K} (hf : ∀ x ∈ l, 0 ≤ f x)
    (hsort : l.Pairwise (· < ·)) (k : Nat) (hk : ∀ i, i < k → (i : K) * dt < T) :
    l.Pairwise fun x y => (quadSeq B dt T (x, f x) k).1 < (quadSeq B dt T (y, f y) k).1 := by
  induction k with
  | zero => exact hsort
  | succ k ih =>
    have := ih (fun i hi => hk i (by omega))
    refine this.imp_of_mem ?_
    intro x y hx hy h
    have ix := quad_inv hB hp (hl x hx) (hf x hx) (hs x hx) k (fun i hi => hk i (by omega)) hT
    have iy := quad_inv hB hp (hl y hy) (hf y hy) (hs y hy) k (fun i hi => hk i (by omega)) hT
    have ht := stepLen_pos hp (hk k (by omega))
    refine quad_order hB ht.le ix.pos h ?_
    have h1 := iy.le
    have h2 := stepLen_le dt T k
    have := iy.pos
    have h3 : B * (quadSeq B dt T (y, f y) k).1 * stepLen dt T k ≤ B * y * dt := by
      have := hl y hy
      gcongr
    have := hs y hy
    linarith

/-- Quadratic losses `dE/dt = −B·γ²·mec²` (`synchrotron_loss`, `ssc_thomson_limit_loss`), no merging of bins, steps
with `2.0001·B·γ·dt < 1`: the evolution does not raise, keeps every bin, and each of its bins, started from `γ₀` with
the density `n₀`, satisfies after `k` steps, i.e. after the time `t = min(k·dt, T)`:
`γ₀/(1 + Bγ₀t/(1 − Bγ₀dt)) ≤ γ ≤ γ₀/(1 + Bγ₀t)`, the right-hand side being the exact solution of `dγ/dt = −Bγ²`;
and the density is not below that of particle-number conservation, `n₀(γ₀/γ)²`. -/
theorem C72_quadratic_losses [FloorSemiring K] {cfg : Cfg K} {name : String} {B dt : K}
    (h : LocalRates cfg [(name, fun g => -(B * cfg.mec2 * g ^ 2))] [] [] dt) (hp : 0 < dt) (hT : 0 ≤ cfg.totalTime)
    (hlog : ∀ x y, 0 < x → x < y → cfg.num.log10 x < cfg.num.log10 y) (hB : 0 ≤ B)
    (hmerge : cfg.mergeCloser = none) {dist : Dist K} (hc : CleanStart cfg dist)
    (hs : ∀ x ∈ cfg.initialGamma, 2.0001 * (B * x * dt) < 1) :
    (∃ r d, Returns cfg dist r d) ∧
    (∀ r d, Returns cfg dist r d → ∃ S : K → K × K, r.gamma = cfg.initialGamma.map (fun x => (S x).1) ∧
      r.density = cfg.initialGamma.map (fun x => (S x).2) ∧
      ∀ x ∈ cfg.initialGamma, QuadInv B dt cfg.totalTime x (dist.eval x) (S x)) ∧
    (∀ k c, KthCallback cfg dist k c → ∃ S : K → K × K, c.gamma = cfg.initialGamma.map (fun x => (S x).1) ∧
      c.density = cfg.initialGamma.map (fun x => (S x).2) ∧
      ∀ x ∈ cfg.initialGamma, QuadInv B dt (min (k * dt) cfg.totalTime) x (dist.eval x) (S x)) := by
  have hm := h.wf.mec2
  have hrate : rateSum [(name, fun g => -(B * cfg.mec2 * g ^ 2))] = fun g => -(B * cfg.mec2 * g ^ 2) := by
    funext g; simp [rateSum]
  have hz : rateSum ([] : List (String × (K → K))) = fun _ => 0 := by funext g; simp [rateSum]
  have hrun := fun k hk => quad_run (T := cfg.totalTime) hm hB hp hT h.wf.gammaPos hs hc.nonneg k hk
  have hinv := fun k hk x hx => quad_inv (T := cfg.totalTime) hB hp (h.wf.gammaPos x hx) (hc.nonneg x hx) (hs x hx)
    k hk hT
  have hprev : ∀ k : Nat, (k : K) * dt < cfg.totalTime → ∀ i, i < k → (i : K) * dt < cfg.totalTime := by
    intro k hk i hi
    have : (i : K) < k := by exact_mod_cast hi
    nlinarith
  have hnext : ∀ k : Nat, (k : K) * dt < cfg.totalTime → ∀ i, i < k + 1 → (i : K) * dt < cfg.totalTime := by
    intro k hk i hi
    have : (i : K) ≤ k := by exact_mod_cast Nat.lt_succ_iff.1 hi
    nlinarith
  have main := C70_euler_run h hp hc.two (dist := dist) rfl (by
    intro k hk
    rw [hrate, hz]
    have e := hrun k (hprev k hk)
    unfold startPairs
    rw [e]
    have hst : ∀ x ∈ cfg.initialGamma, eulerBin cfg.mec2 (fun g => -(B * cfg.mec2 * g ^ 2)) (fun _ => 0) (fun _ => 0)
        (min dt (cfg.totalTime - k * dt)) (quadSeq B dt cfg.totalTime (x, dist.eval x) k)
        = quadSeq B dt cfg.totalTime (x, dist.eval x) (k + 1) :=
      fun x hx => quad_step (x := (quadSeq B dt cfg.totalTime (x, dist.eval x) k).1) hm
        (hinv k (hprev k hk) x hx).pos
    refine ⟨?_, ?_, ?_, ?_, ?_, ?_⟩
    · simp only [List.mem_map]
      rintro p ⟨x, hx, rfl⟩
      rw [hst x hx]
      exact (hinv (k + 1) (hnext k hk) x hx).pos
    · simp only [List.mem_map]
      rintro p ⟨x, hx, rfl⟩
      have i1 := hinv k (hprev k hk) x hx
      have hm' := ne_of_gt hm
      set y := (quadSeq B dt cfg.totalTime (x, dist.eval x) k).1
      have : y / 10000 + (-(B * cfg.mec2 * (y * (1 + 1 / 10000)) ^ 2) - -(B * cfg.mec2 * y ^ 2))
          * min dt (cfg.totalTime - k * dt) / cfg.mec2
          = y / 10000 * (1 - 2.0001 * (B * y * min dt (cfg.totalTime - k * dt))) := by field_simp; ring
      rw [this]
      have hy := i1.pos
      have hx0 := h.wf.gammaPos x hx
      have ht : 0 < min dt (cfg.totalTime - k * dt) := stepLen_pos hp hk
      have h3 : B * y * min dt (cfg.totalTime - k * dt) ≤ B * x * dt := by
        have := i1.le
        have := min_le_left dt (cfg.totalTime - k * dt)
        gcongr
      have := hs x hx
      exact mul_pos (by positivity) (by linarith)
    · simp only [List.mem_map]
      rintro p ⟨x, hx, rfl⟩
      rw [hst x hx]
      refine le_trans ?_ (hinv (k + 1) (hnext k hk) x hx).dens
      have := hc.nonneg x hx
      positivity
    · rw [List.pairwise_map, List.pairwise_map]
      refine (quad_pairwise hB hp hT h.wf.gammaPos hs hc.nonneg h.wf.gammaSorted (k + 1) (hnext k hk)).imp_of_mem ?_
      intro x y hx hy hxy
      rw [hst x hx, hst y hy]
      exact hlog _ _ (hinv (k + 1) (hnext k hk) x hx).pos hxy
    · intro thr hthr
      rw [hmerge] at hthr
      simp at hthr
    · right
      rw [List.filter_map, List.length_map]
      refine filter_pos_length (f := dist.eval) ?_ hc.interp
      intro x hx h0
      simp only
      rw [hst x hx]
      have i1 := hinv (k + 1) (hnext k hk) x hx
      have hx0 := h.wf.gammaPos x hx
      have := i1.pos
      exact ne_of_gt (lt_of_lt_of_le (by positivity) i1.dens))
  rw [hrate, hz] at main
  obtain ⟨m1, m2, m3⟩ := main
  have hN : ∀ k, k ≤ ⌈cfg.totalTime / dt⌉₊ → ∀ i, i < k → (i : K) * dt < cfg.totalTime := by
    intro k hkN i hi
    have : (i : K) < cfg.totalTime / dt := Nat.lt_ceil.1 (lt_of_lt_of_le hi hkN)
    rwa [lt_div_iff₀ hp] at this
  refine ⟨m1, ?_, ?_⟩
  · intro r d hr
    obtain ⟨e1, e2, -⟩ := m2 r d hr
    have e := hrun _ (hN _ le_rfl)
    unfold startPairs at e1 e2
    rw [e] at e1 e2
    refine ⟨fun x => quadSeq B dt cfg.totalTime (x, dist.eval x) ⌈cfg.totalTime / dt⌉₊, ?_, ?_, ?_⟩
    · rw [e1]; simp [Function.comp_def]
    · rw [e2]; simp [Function.comp_def]
    · intro x hx
      have := hinv _ (hN _ le_rfl) x hx
      have hle : cfg.totalTime ≤ (⌈cfg.totalTime / dt⌉₊ : K) * dt := by
        rw [← div_le_iff₀ hp]; exact Nat.le_ceil _
      rwa [min_eq_right hle] at this
  · intro k c hcb
    obtain ⟨-, hkN⟩ := C02_callback_times h.fixed hp hcb
    have hk0 : 0 < k := by obtain ⟨s, -, h0, -⟩ := hcb; exact h0
    obtain ⟨e1, e2⟩ := (m3 k hk0 hkN).2 c hcb
    have e := hrun _ (hN k hkN)
    unfold startPairs at e1 e2
    rw [e] at e1 e2
    refine ⟨fun x => quadSeq B dt cfg.totalTime (x, dist.eval x) k, ?_, ?_, fun x hx => hinv _ (hN k hkN) x hx⟩
    · rw [e1]; simp [Function.comp_def]
    · rw [e2]; simp [Function.comp_def]

/-! ### C73 -/

theorem static_step {mec2 t : K} {en rel abs : K → K} (h0 : ∀ g, en g = 0) {x n : K} (hx : 0 < x) :
    eulerBin mec2 en rel abs t (x, n) = (x, n * (1 + rel x * t) + abs x * t) := by
  unfold eulerBin
  have hx' := ne_of_gt hx
  refine Prod.ext ?_ ?_
  · simp [h0]
  · simp only [h0, sub_zero, zero_mul, zero_div, add_zero]
    rw [mul_div_cancel_right₀ _ (by positivity)]
    ring

/-- the density after `k` steps with the relative rate `r` and the absolute rate `a` -/
def fill (r a dt T : K) (n : K) : Nat → K
  | 0 => n
  | k + 1 => fill r a dt T n k * (1 + r * stepLen dt T k) + a * stepLen dt T k

theorem fill_zero_rate {a dt T n : K} (k : Nat) (hk : ∀ i, i < k → (i : K) * dt < T) (hT : 0 ≤ T) :
    fill 0 a dt T n k = n + a * min (k * dt) T := by
  induction k with
  | zero => simp [fill, hT]
  | succ k ih =>
    rw [min_succ (hk k (by omega)), fill, ih (fun i hi => hk i (by omega))]
    ring

theorem fill_growth {r a dt T n : K} (hr : r ≠ 0) (k : Nat) :
    fill r a dt T n k = (n + a / r) * growth r dt T k - a / r := by
  induction k with
  | zero => simp [fill, growth]
  | succ k ih =>
    rw [fill, growth, ih]
    field_simp
    ring

theorem fill_nonneg {r a dt T n : K} (hn : 0 ≤ n) (ha : 0 ≤ a) (hp : 0 < dt) (hr : 0 < 1 + r * dt) (k : Nat)
    (hk : ∀ i, i < k → (i : K) * dt < T) : 0 ≤ fill r a dt T n k := by
  induction k with
  | zero => exact hn
  | succ k ih =>
    have h1 := ih (fun i hi => hk i (by omega))
    have h2 := factor_pos hp hr (hk k (by omega))
    have h3 := stepLen_pos hp (hk k (by omega))
    rw [fill]
    positivity

theorem fill_pos {r a dt T n : K} (hn : 0 ≤ n) (ha : 0 ≤ a) (hp : 0 < dt) (hr : 0 < 1 + r * dt)
    (h : 0 < n + a) (k : Nat) (hk : ∀ i, i < k + 1 → (i : K) * dt < T) : 0 < fill r a dt T n (k + 1) := by
  rcases lt_or_eq_of_le ha with h0 | h0
  · have h1 := fill_nonneg hn ha hp hr k (fun i hi => hk i (by omega))
    have h2 := factor_pos hp hr (hk k (by omega))
    have h3 := stepLen_pos hp (hk k (by omega))
    rw [fill]
    positivity
  · have hn' : 0 < n := by linarith
    have : ∀ j : ℕ, (∀ i : ℕ, i < j → (i : K) * dt < T) → 0 < fill r a dt T n j := by
      intro j
      induction j with
      | zero => intro _; exact hn'
      | succ j ih =>
        intro hj
        have h1 := ih (fun i hi => hj i (by omega))
        have h2 := factor_pos hp hr (hj j (by omega))
        have h3 := stepLen_pos hp (hj j (by omega))
        rw [fill]
        positivity
    exact this _ hk

theorem static_run {mec2 dt T : K} {en rel abs : K → K} (h0 : ∀ g, en g = 0) {l : List K} (hl : ∀ x ∈ l, 0 < x)
    (f : K → K) (k : Nat) :
    eulerRun (eulerBin mec2 en rel abs) dt T (l.map fun x => (x, f x)) k
      = l.map fun x => (x, fill (rel x) (abs x) dt T (f x) k) := by
  induction k with
  | zero => rfl
  | succ k ih =>
    rw [eulerRun, ih, List.map_map]
    apply List.map_congr_left
    intro x hx
    exact static_step h0 (hl x hx)

/-- with injection and escape alone no step meets an obstacle, and no bin moves -/
theorem fill_smooth {cfg : Cfg K} {enL relL absL : List (String × (K → K))} {dt : K}
    (h : LocalRates cfg enL relL absL dt) (hp : 0 < dt)
    (hen : ∀ x, rateSum enL x = 0) {dist : Dist K}
    (horder : (cfg.initialGamma.map cfg.num.log10).Pairwise (· < ·))
    (hapart : ∀ thr, cfg.mergeCloser = some thr → ∀ j, j + 1 < cfg.initialGamma.length →
      thr ≤ cfg.num.log10 (cfg.initialGamma.getD (j + 1) 0) - cfg.num.log10 (cfg.initialGamma.getD j 0))
    (hn : ∀ x ∈ cfg.initialGamma, 0 ≤ dist.eval x) (ha : ∀ x ∈ cfg.initialGamma, 0 ≤ rateSum absL x)
    (hr : ∀ x ∈ cfg.initialGamma, 0 < 1 + rateSum relL x * dt)
    (hsome : 2 ≤ (cfg.initialGamma.filter fun x => decide (0 < dist.eval x + rateSum absL x)).length) :
    ∀ k : ℕ, (k : K) * dt < cfg.totalTime → Smooth cfg (rateSum enL) (rateSum relL) (rateSum absL)
      (min dt (cfg.totalTime - k * dt))
      (eulerRun (eulerBin cfg.mec2 (rateSum enL) (rateSum relL) (rateSum absL)) dt cfg.totalTime (startPairs cfg dist) k) := by
  have hrun := fun k => static_run (mec2 := cfg.mec2) (dt := dt) (T := cfg.totalTime) (rel := rateSum relL)
    (abs := rateSum absL) hen h.wf.gammaPos dist.eval k
  have hnext : ∀ k : Nat, (k : K) * dt < cfg.totalTime → ∀ i, i < k + 1 → (i : K) * dt < cfg.totalTime := by
    intro k hk i hi
    have : (i : K) ≤ k := by exact_mod_cast Nat.lt_succ_iff.1 hi
    nlinarith
  intro k hk
  have e := hrun k
  unfold startPairs
  rw [e]
  have hst : ∀ x ∈ cfg.initialGamma, eulerBin cfg.mec2 (rateSum enL) (rateSum relL) (rateSum absL)
      (min dt (cfg.totalTime - k * dt)) (x, fill (rateSum relL x) (rateSum absL x) dt cfg.totalTime (dist.eval x) k)
      = (x, fill (rateSum relL x) (rateSum absL x) dt cfg.totalTime (dist.eval x) (k + 1)) :=
    fun x hx => static_step hen (h.wf.gammaPos x hx)
  refine ⟨?_, ?_, ?_, ?_, ?_, ?_⟩
  · simp only [List.mem_map]
    rintro p ⟨x, hx, rfl⟩
    rw [hst x hx]
    exact h.wf.gammaPos x hx
  · simp only [List.mem_map]
    rintro p ⟨x, hx, rfl⟩
    have := h.wf.gammaPos x hx
    simp only [hen, sub_zero, zero_mul, zero_div, add_zero]
    positivity
  · simp only [List.mem_map]
    rintro p ⟨x, hx, rfl⟩
    rw [hst x hx]
    exact fill_nonneg (hn x hx) (ha x hx) hp (hr x hx) (k + 1) (hnext k hk)
  · rw [List.pairwise_map, List.pairwise_map]
    rw [List.pairwise_map] at horder
    refine horder.imp_of_mem ?_
    intro x y hx hy hxy
    rw [hst x hx, hst y hy]
    exact hxy
  · intro thr hthr j hj
    rw [List.length_map] at hj
    have hj' : j < cfg.initialGamma.length := by omega
    rw [getD_map_pair hj, getD_map_pair hj', hst _ (getD_mem hj), hst _ (getD_mem hj')]
    exact hapart thr hthr j hj
  · right
    rw [List.filter_map, List.length_map]
    refine filter_pos_length (f := fun x => dist.eval x + rateSum absL x) ?_ hsome
    intro x hx h0
    simp only
    rw [hst x hx]
    exact ne_of_gt (fill_pos (hn x hx) (ha x hx) hp (hr x hx) h0 k (hnext k hk))

/-- Only injection and escape: energy-change rates of zero, relative rates `r(γ)` with `1 + r·dt > 0`, absolute rates
`a(γ) ≥ 0`, at least two bins with `n₀ + a > 0`.  The evolution does not raise and never moves a bin; after
`k` steps, i.e. the time `t = min(k·dt, T)`, the density is `n₀ + a·t` where `r = 0`, and
`(n₀ + a/r)·g − a/r` elsewhere, `g` being the product of the factors `1 + r·(step)`, i.e. `(1 + r·dt)^k` as long as
no step is cut. -/
theorem C73_injection_escape [FloorSemiring K] {cfg : Cfg K} {enL relL absL : List (String × (K → K))} {dt : K}
    (h : LocalRates cfg enL relL absL dt) (hp : 0 < dt) (hT : 0 ≤ cfg.totalTime)
    (hen : ∀ x, rateSum enL x = 0) {dist : Dist K} (hc2 : 2 ≤ cfg.initialGamma.length)
    (horder : (cfg.initialGamma.map cfg.num.log10).Pairwise (· < ·))
    (hapart : ∀ thr, cfg.mergeCloser = some thr → ∀ j, j + 1 < cfg.initialGamma.length →
      thr ≤ cfg.num.log10 (cfg.initialGamma.getD (j + 1) 0) - cfg.num.log10 (cfg.initialGamma.getD j 0))
    (hn : ∀ x ∈ cfg.initialGamma, 0 ≤ dist.eval x) (ha : ∀ x ∈ cfg.initialGamma, 0 ≤ rateSum absL x)
    (hr : ∀ x ∈ cfg.initialGamma, 0 < 1 + rateSum relL x * dt)
    (hsome : 2 ≤ (cfg.initialGamma.filter fun x => decide (0 < dist.eval x + rateSum absL x)).length) :
    (∃ r d, Returns cfg dist r d) ∧
    (∀ r d, Returns cfg dist r d → r.gamma = cfg.initialGamma ∧ ∃ n : K → K,
      r.density = cfg.initialGamma.map n ∧ ∀ x ∈ cfg.initialGamma,
        (rateSum relL x = 0 → n x = dist.eval x + rateSum absL x * cfg.totalTime) ∧
        (rateSum relL x ≠ 0 → n x = (dist.eval x + rateSum absL x / rateSum relL x)
          * growth (rateSum relL x) dt cfg.totalTime ⌈cfg.totalTime / dt⌉₊ - rateSum absL x / rateSum relL x)) ∧
    (∀ k c, KthCallback cfg dist k c → c.gamma = cfg.initialGamma ∧ ∃ n : K → K,
      c.density = cfg.initialGamma.map n ∧ ∀ x ∈ cfg.initialGamma,
        (rateSum relL x = 0 → n x = dist.eval x + rateSum absL x * min (k * dt) cfg.totalTime) ∧
        (rateSum relL x ≠ 0 → n x = (dist.eval x + rateSum absL x / rateSum relL x)
          * growth (rateSum relL x) dt cfg.totalTime k - rateSum absL x / rateSum relL x)) := by
  have hrun := fun k => static_run (mec2 := cfg.mec2) (dt := dt) (T := cfg.totalTime) (rel := rateSum relL)
    (abs := rateSum absL) hen h.wf.gammaPos dist.eval k
  have main := C70_euler_run h hp hc2 (dist := dist) rfl (fill_smooth h hp hen horder hapart hn ha hr hsome)
  obtain ⟨m1, m2, m3⟩ := main
  have hN : ∀ k, k ≤ ⌈cfg.totalTime / dt⌉₊ → ∀ i, i < k → (i : K) * dt < cfg.totalTime := by
    intro k hkN i hi
    have : (i : K) < cfg.totalTime / dt := Nat.lt_ceil.1 (lt_of_lt_of_le hi hkN)
    rwa [lt_div_iff₀ hp] at this
  have hcl : ∀ k, k ≤ ⌈cfg.totalTime / dt⌉₊ → ∀ x,
      (rateSum relL x = 0 → fill (rateSum relL x) (rateSum absL x) dt cfg.totalTime (dist.eval x) k
        = dist.eval x + rateSum absL x * min (k * dt) cfg.totalTime) ∧
      (rateSum relL x ≠ 0 → fill (rateSum relL x) (rateSum absL x) dt cfg.totalTime (dist.eval x) k
        = (dist.eval x + rateSum absL x / rateSum relL x)
          * growth (rateSum relL x) dt cfg.totalTime k - rateSum absL x / rateSum relL x) := by
    intro k hkN x
    refine ⟨fun h0 => ?_, fun h0 => fill_growth h0 k⟩
    rw [h0]
    exact fill_zero_rate k (hN k hkN) hT
  refine ⟨m1, ?_, ?_⟩
  · intro r d hret
    obtain ⟨e1, e2, -⟩ := m2 r d hret
    unfold startPairs at e1 e2
    rw [hrun] at e1 e2
    refine ⟨by rw [e1]; simp [Function.comp_def], fun x => fill (rateSum relL x) (rateSum absL x) dt cfg.totalTime
      (dist.eval x) ⌈cfg.totalTime / dt⌉₊, ?_, fun x _ => ?_⟩
    · rw [e2]; simp [Function.comp_def]
    · have := hcl _ le_rfl x
      have hle : cfg.totalTime ≤ (⌈cfg.totalTime / dt⌉₊ : K) * dt := by
        rw [← div_le_iff₀ hp]; exact Nat.le_ceil _
      rwa [min_eq_right hle] at this
  · intro k c hcb
    obtain ⟨-, hkN⟩ := C02_callback_times h.fixed hp hcb
    have hk0 : 0 < k := by obtain ⟨s, -, h0, -⟩ := hcb; exact h0
    obtain ⟨e1, e2⟩ := (m3 k hk0 hkN).2 c hcb
    unfold startPairs at e1 e2
    rw [hrun] at e1 e2
    refine ⟨by rw [e1]; simp [Function.comp_def], fun x => fill (rateSum relL x) (rateSum absL x) dt cfg.totalTime
      (dist.eval x) k, ?_, fun x _ => hcl k hkN x⟩
    rw [e2]; simp [Function.comp_def]

/-! ### the hypotheses can be met -/

/-- quadratic losses only -/
def coolCfg : Cfg ℚ := { eulerCfg with
  enFns := [("cool", fun _ p => p.gamma.map fun g => -(1 / 10 * 1 * g ^ 2))], relFns := [], absFns := [],
  mergeCloser := none }

/-- C72 applies: a particle of Lorentz factor 4 cools to between 40/13 - 1/5 and 40/13 in 3/4 s -/
example : ∃ r d, Returns coolCfg demoDist r d ∧ ∃ x ∈ r.gamma, 40 / 13 - 1 / 5 ≤ x ∧ x ≤ 40 / 13 := by
  have hwf : coolCfg.WF := { eulerCfg_local.wf with
    keysEn := by simp [coolCfg]
    keysRel := by simp [coolCfg]
    keysAbs := by simp [coolCfg] }
  obtain ⟨⟨r, d, hr⟩, h2, -⟩ := C72_quadratic_losses (cfg := coolCfg) (name := "cool") (B := 1 / 10) (dt := 1 / 2)
    ⟨hwf, rfl, rfl, rfl, rfl, rfl, rfl, rfl⟩ (by norm_num) (by norm_num [coolCfg, eulerCfg, demoCfg])
    (fun x y _ h => h) (by norm_num) rfl (dist := demoDist)
    ⟨by decide, by decide +kernel, by simp [coolCfg], by decide +kernel, by decide +kernel⟩ (by decide +kernel)
  refine ⟨r, d, hr, ?_⟩
  obtain ⟨S, e1, -, h⟩ := h2 r d hr
  have := h 4 (by simp [coolCfg, eulerCfg, demoCfg])
  refine ⟨(S 4).1, ?_, ?_, ?_⟩
  · rw [e1]; exact List.mem_map.2 ⟨4, by simp [coolCfg, eulerCfg, demoCfg], rfl⟩
  · refine le_trans ?_ this.lower
    norm_num [coolCfg, eulerCfg, demoCfg]
  · refine le_trans this.upper ?_
    norm_num [coolCfg, eulerCfg, demoCfg]

/-- injection and escape only -/
def fillCfg : Cfg ℚ := { eulerCfg with enFns := [] }

/-- C73 applies -/
example : ∃ r d, Returns fillCfg demoDist r d ∧ r.gamma = [1, 2, 4] ∧
    r.density = [8, 4, 2].map fun n : ℚ => (n - 10) * (19 / 20 * (39 / 40)) + 10 := by
  have hwf : fillCfg.WF := { eulerCfg_local.wf with keysEn := by simp [fillCfg] }
  obtain ⟨⟨r, d, hr⟩, h2, -⟩ := C73_injection_escape (cfg := fillCfg) (enL := []) (relL := [("esc", fun _ => -1/10)])
    (absL := [("inj", fun _ => 1)]) (dt := 1 / 2)
    ⟨hwf, rfl, rfl, rfl, rfl, rfl, rfl, rfl⟩ (by norm_num) (by norm_num [fillCfg, eulerCfg, demoCfg])
    (fun x => by simp [rateSum]) (dist := demoDist) (by decide) (by decide +kernel) (by
      intro thr hthr
      have : thr = 1/1000 := by simpa [fillCfg, eulerCfg, demoCfg] using hthr.symm
      subst this
      intro j hj
      have hj2 : j < 2 := by simp [fillCfg, eulerCfg, demoCfg] at hj; omega
      have : j = 0 ∨ j = 1 := by omega
      rcases this with rfl | rfl <;> decide +kernel) (by decide +kernel) (by decide +kernel) (by decide +kernel)
      (by decide +kernel)
  obtain ⟨e1, n, e2, hn⟩ := h2 r d hr
  refine ⟨r, d, hr, e1, ?_⟩
  have hN : ⌈fillCfg.totalTime / (1/2 : ℚ)⌉₊ = 2 := by
    rw [Nat.ceil_eq_iff (by norm_num)]
    norm_num [fillCfg, eulerCfg, demoCfg]
  rw [hN] at hn
  rw [e2]
  have key : ∀ x ∈ fillCfg.initialGamma, n x = (demoDist.eval x - 10) * (19 / 20 * (39 / 40)) + 10 := by
    intro x hx
    rw [(hn x hx).2 (by norm_num [rateSum])]
    norm_num [rateSum, growth, stepLen, fillCfg, eulerCfg, demoCfg]
    ring
  rw [List.map_congr_left key]
  decide +kernel

end Verif.TE
