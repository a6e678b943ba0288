import Verif.Props.TESteady

/-
C117: acceleration against synchrotron losses gathers the particles at the Lorentz factor where the two balance, from
both sides, without overshooting.
-/

namespace Verif.TE

open Filter Topology

/-- rate of energy change of `a γ - B γ²` per rest energy -/
def balanceRate (mec2 a B : ℝ) (g : ℝ) : ℝ := a * (g * mec2) + -(B * mec2 * g ^ 2)

/-- a bin after `k` Euler steps -/
noncomputable def balanceSeq (mec2 a B dt T : ℝ) (p : ℝ × ℝ) : ℕ → ℝ × ℝ
  | 0 => p
  | k + 1 => eulerBin mec2 (balanceRate mec2 a B) (fun _ => 0) (fun _ => 0) (stepLen dt T k) (balanceSeq mec2 a B dt T p k)

theorem balance_run (mec2 a B dt T : ℝ) (l : List ℝ) (f : ℝ → ℝ) (k : ℕ) :
    eulerRun (eulerBin mec2 (balanceRate mec2 a B) (fun _ => 0) (fun _ => 0)) dt T (l.map fun x => (x, f x)) k
      = l.map fun x => balanceSeq mec2 a B dt T (x, f x) k := by
  induction k with
  | zero => rfl
  | succ k ih =>
    show List.map _ _ = _
    rw [ih, List.map_map]
    rfl

/-- one step in plain numbers -/
theorem balance_step {mec2 a B t : ℝ} (hm : 0 < mec2) (p : ℝ × ℝ) :
    (eulerBin mec2 (balanceRate mec2 a B) (fun _ => 0) (fun _ => 0) t p).1 = p.1 * (1 + a * t - B * p.1 * t)
    ∧ p.1 / 10000 + (balanceRate mec2 a B (p.1 * (1 + 1 / 10000)) - balanceRate mec2 a B p.1) * t / mec2
      = p.1 / 10000 * (1 + a * t - 2.0001 * (B * p.1 * t))
    ∧ (0 < p.1 → (eulerBin mec2 (balanceRate mec2 a B) (fun _ => 0) (fun _ => 0) t p).2
      = p.2 / (1 + a * t - 2.0001 * (B * p.1 * t))) := by
  have hm' := hm.ne'
  have hw : p.1 / 10000 + (balanceRate mec2 a B (p.1 * (1 + 1 / 10000)) - balanceRate mec2 a B p.1) * t / mec2
      = p.1 / 10000 * (1 + a * t - 2.0001 * (B * p.1 * t)) := by
    unfold balanceRate
    field_simp
    ring
  refine ⟨?_, hw, fun h0 => ?_⟩
  · unfold eulerBin balanceRate
    simp only
    field_simp
    ring
  · unfold eulerBin
    simp only
    rw [hw, mul_zero, zero_add, zero_mul, add_zero, mul_comm p.2, mul_div_mul_left _ _ (by positivity)]

/-- what is known of a bin that started at `x` with density `n` after the time `t` -/
structure BalanceInv (a B t x n : ℝ) (p : ℝ × ℝ) : Prop where
  low : min x (a / B) ≤ p.1
  high : p.1 ≤ max x (a / B)
  near : Approaches (Real.exp (-(B * min x (a / B) * t))) (a / B) x p.1
  nonneg : 0 ≤ n → 0 ≤ p.2
  pos : 0 < n → 0 < p.2

theorem balance_inv {mec2 a B dt T x n : ℝ} (hm : 0 < mec2) (ha : 0 < a) (hB : 0 < B) (hp : 0 < dt) (hT : 0 ≤ T) (hx : 0 < x)
    (h1 : 2.0001 * (B * x * dt) < 1) (h2 : 2.0001 * (a * dt) < 1) (k : ℕ) (hk : ∀ i, i < k → (i : ℝ) * dt < T) :
    BalanceInv a B (min (k * dt) T) x n (balanceSeq mec2 a B dt T (x, n) k) := by
  have hG : 0 < a / B := div_pos ha hB
  have hBG : B * (a / B) = a := by field_simp
  induction k with
  | zero =>
    refine ⟨min_le_left _ _, le_max_left _ _, ⟨id, id, ?_⟩, id, id⟩
    simp [balanceSeq, hT]
  | succ k ih =>
    have i := ih fun j hj => hk j (by omega)
    have hkk := hk k (by omega)
    have ht := stepLen_pos hp hkk
    have htd := stepLen_le dt T k
    set p := balanceSeq mec2 a B dt T (x, n) k with hpdef
    have e : balanceSeq mec2 a B dt T (x, n) (k + 1)
      = eulerBin mec2 (balanceRate mec2 a B) (fun _ => 0) (fun _ => 0) (stepLen dt T k) p := rfl
    obtain ⟨s1, -, s3⟩ := balance_step (a := a) (B := B) (t := stepLen dt T k) hm p
    rw [← e] at s1 s3
    set q := balanceSeq mec2 a B dt T (x, n) (k + 1) with hq
    set t := stepLen dt T k with htdef
    have hy : 0 < p.1 := lt_of_lt_of_le (lt_min hx hG) i.low
    -- the step resolves the losses of the bin
    have hres : 2.0001 * (B * p.1 * t) < 1 := by
      have h3 : B * p.1 * t ≤ B * max x (a / B) * dt := by
        have := i.high
        have : 0 < max x (a / B) := lt_of_lt_of_le hx (le_max_left _ _)
        gcongr
      rcases max_choice x (a / B) with h | h <;> rw [h] at h3
      · linarith
      · rw [hBG] at h3; linarith
    have hpos : 0 ≤ B * p.1 * t := by positivity
    have hfac : 0 < 1 - B * p.1 * t := by linarith
    have hgap : q.1 - a / B = (p.1 - a / B) * (1 - B * p.1 * t) := by
      rw [s1]
      have : a = B * (a / B) := hBG.symm
      generalize a / B = G at this
      rw [this]
      ring
    have hden : 0 < 1 + a * t - 2.0001 * (B * p.1 * t) := by
      have : 0 < a * t := by positivity
      linarith
    have hside := i.near
    -- the next value is between the last one and the balance
    have hlow : min x (a / B) ≤ q.1 := by
      rcases le_total (a / B) p.1 with h | h
      · have := mul_nonneg (sub_nonneg.2 h) hfac.le
        exact (min_le_right _ _).trans (by linarith)
      · have := mul_nonneg (sub_nonneg.2 h) hpos
        exact i.low.trans (by linarith)
    have hhigh : q.1 ≤ max x (a / B) := by
      rcases le_total (a / B) p.1 with h | h
      · have := mul_nonneg (sub_nonneg.2 h) hpos
        exact le_trans (by linarith) i.high
      · have := mul_nonneg (sub_nonneg.2 h) hfac.le
        exact le_trans (by linarith) (le_max_right _ _)
    refine ⟨hlow, hhigh, ⟨fun h => ?_, fun h => ?_, ?_⟩, fun h => ?_, fun h => ?_⟩
    · have := mul_nonneg (sub_nonneg.2 (hside.1 h)) hfac.le
      linarith
    · have := mul_nonneg (sub_nonneg.2 (hside.2.1 h)) hfac.le
      linarith
    · rw [hgap, abs_mul, abs_of_pos hfac, min_succ hkk, ← htdef]
      have hexp : 1 - B * p.1 * t ≤ Real.exp (-(B * min x (a / B) * t)) := by
        have h3 := Real.add_one_le_exp (-(B * min x (a / B) * t))
        have h4 : B * min x (a / B) * t ≤ B * p.1 * t := by
          have := i.low
          gcongr
        linarith
      have hsplit : Real.exp (-(B * min x (a / B) * (min (k * dt) T + t)))
          = Real.exp (-(B * min x (a / B) * min (k * dt) T)) * Real.exp (-(B * min x (a / B) * t)) := by
        rw [← Real.exp_add]
        congr 1
        ring
      rw [hsplit]
      calc |p.1 - a / B| * (1 - B * p.1 * t)
          ≤ (Real.exp (-(B * min x (a / B) * min (k * dt) T)) * |x - a / B|) * Real.exp (-(B * min x (a / B) * t)) :=
            mul_le_mul hside.2.2 hexp hfac.le (by positivity)
        _ = _ := by ring
    · rw [s3 hy]; exact div_nonneg (i.nonneg h) hden.le
    · rw [s3 hy]; exact div_pos (i.pos h) hden

theorem balance_order {mec2 a B dt T : ℝ} (hm : 0 < mec2) (ha : 0 < a) (hB : 0 < B) (hp : 0 < dt) (hT : 0 ≤ T) {l : List ℝ}
    (hl : ∀ x ∈ l, 0 < x) (h1 : ∀ x ∈ l, 2.0001 * (B * x * dt) < 1) (h2 : 2.0001 * (a * dt) < 1) (f : ℝ → ℝ)
    (hsort : l.Pairwise (· < ·)) (k : ℕ) (hk : ∀ i, i < k → (i : ℝ) * dt < T) :
    l.Pairwise fun x y => (balanceSeq mec2 a B dt T (x, f x) k).1 < (balanceSeq mec2 a B dt T (y, f y) k).1 := by
  have hG : 0 < a / B := div_pos ha hB
  have hBG : B * (a / B) = a := by field_simp
  induction k with
  | zero => exact hsort
  | succ k ih =>
    refine (ih fun i hi => hk i (by omega)).imp_of_mem ?_
    intro x y hx hy hxy
    have hkk := hk k (by omega)
    have ht := stepLen_pos hp hkk
    have htd := stepLen_le dt T k
    have hres : ∀ z ∈ l, 2.0001 * (B * (balanceSeq mec2 a B dt T (z, f z) k).1 * stepLen dt T k) < 1
        ∧ 0 < (balanceSeq mec2 a B dt T (z, f z) k).1 := by
      intro z hz
      have i := balance_inv (n := f z) hm ha hB hp hT (hl z hz) (h1 z hz) h2 k fun i hi => hk i (by omega)
      have hz0 := hl z hz
      have hpz : 0 < (balanceSeq mec2 a B dt T (z, f z) k).1 := lt_of_lt_of_le (lt_min hz0 hG) i.low
      refine ⟨?_, hpz⟩
      have h3 : B * (balanceSeq mec2 a B dt T (z, f z) k).1 * stepLen dt T k ≤ B * max z (a / B) * dt := by
        have := i.high
        have : 0 < max z (a / B) := lt_of_lt_of_le hz0 (le_max_left _ _)
        gcongr
      have h4 := h1 z hz
      rcases max_choice z (a / B) with h | h <;> rw [h] at h3
      · linarith
      · rw [hBG] at h3; linarith
    have e : ∀ z, balanceSeq mec2 a B dt T (z, f z) (k + 1) = eulerBin mec2 (balanceRate mec2 a B) (fun _ => 0) (fun _ => 0)
      (stepLen dt T k) (balanceSeq mec2 a B dt T (z, f z) k) := fun _ => rfl
    rw [e, e, (balance_step hm _).1, (balance_step hm _).1]
    obtain ⟨rx, px⟩ := hres x hx
    obtain ⟨ry, py⟩ := hres y hy
    generalize (balanceSeq mec2 a B dt T (x, f x) k).1 = u at *
    generalize (balanceSeq mec2 a B dt T (y, f y) k).1 = v at *
    have hat : 0 < a * stepLen dt T k := by positivity
    have hu : 0 < B * u * stepLen dt T k := by positivity
    have hv : 0 < B * v * stepLen dt T k := by positivity
    have hd := mul_pos (sub_pos.2 hxy) (show 0 < 1 + a * stepLen dt T k - B * u * stepLen dt T k - B * v * stepLen dt T k by
      linarith)
    nlinarith

/-- **C117**: acceleration `dE/dt = a E` and losses `dE/dt = -B γ² mec²`, no merging of bins, steps that resolve both.
The run does not raise and keeps every bin; at the end and at each callback each bin lies on the same side of the balance
`a / B` as at the start, between its start and the balance, nearer to the balance at least by the factor
`exp(-B min(γ₀, a/B) t)`; positive densities stay positive. -/
theorem C117_balance {cfg : Cfg ℝ} {n1 n2 : String} {a B dt : ℝ}
    (h : LocalRates cfg [(n1, fun g => a * (g * cfg.mec2)), (n2, fun g => -(B * cfg.mec2 * g ^ 2))] [] [] dt) (hp : 0 < dt)
    (hT : 0 ≤ cfg.totalTime) (hlog : ∀ x y, 0 < x → x < y → cfg.num.log10 x < cfg.num.log10 y) (ha : 0 < a) (hB : 0 < B)
    (hmerge : cfg.mergeCloser = none) {dist : Dist ℝ} (hc : CleanStart cfg dist)
    (h1 : ∀ x ∈ cfg.initialGamma, 2.0001 * (B * x * dt) < 1) (h2 : 2.0001 * (a * dt) < 1) :
    (∃ r d, Returns cfg dist r d) ∧
    (∀ r d, Returns cfg dist r d → ∃ S : ℝ → ℝ × ℝ, r.gamma = cfg.initialGamma.map (fun x => (S x).1) ∧
      r.density = cfg.initialGamma.map (fun x => (S x).2) ∧
      ∀ x ∈ cfg.initialGamma, BalanceInv a B cfg.totalTime x (dist.eval x) (S x)) ∧
    (∀ k c, KthCallback cfg dist k c → ∃ S : ℝ → ℝ × ℝ, c.gamma = cfg.initialGamma.map (fun x => (S x).1) ∧
      c.density = cfg.initialGamma.map (fun x => (S x).2) ∧
      ∀ x ∈ cfg.initialGamma, BalanceInv a B c.totalTime x (dist.eval x) (S x)) := by
  have hm := h.wf.mec2
  have hG : 0 < a / B := div_pos ha hB
  have hBG : B * (a / B) = a := by field_simp
  have hrate : rateSum [(n1, fun g => a * (g * cfg.mec2)), (n2, fun g => -(B * cfg.mec2 * g ^ 2))]
      = balanceRate cfg.mec2 a B := by
    funext g; simp [rateSum, balanceRate]
  have hz : rateSum ([] : List (String × (ℝ → ℝ))) = fun _ => 0 := by funext g; simp [rateSum]
  have hrun := fun k => balance_run cfg.mec2 a B dt cfg.totalTime cfg.initialGamma dist.eval k
  have hinv := fun k hk x hx => balance_inv (n := dist.eval x) hm ha hB hp hT (h.wf.gammaPos x hx) (h1 x hx) h2 k hk
  have hprev : ∀ k : ℕ, (k : ℝ) * dt < cfg.totalTime → ∀ i, i < k → (i : ℝ) * dt < cfg.totalTime := by
    intro k hk i hi
    have : (i : ℝ) < k := by exact_mod_cast hi
    nlinarith
  have hnext : ∀ k : ℕ, (k : ℝ) * dt < cfg.totalTime → ∀ i, i < k + 1 → (i : ℝ) * dt < cfg.totalTime := by
    intro k hk i hi
    have : (i : ℝ) ≤ k := by exact_mod_cast Nat.lt_succ_iff.1 hi
    nlinarith
  have hpos : ∀ k : ℕ, (∀ i : ℕ, i < k → (i : ℝ) * dt < cfg.totalTime) → ∀ x ∈ cfg.initialGamma,
      0 < (balanceSeq cfg.mec2 a B dt cfg.totalTime (x, dist.eval x) k).1 :=
    fun k hk x hx => lt_of_lt_of_le (lt_min (h.wf.gammaPos x hx) hG) (hinv k hk x hx).low
  have main := C70_euler_run h hp hc.two (dist := dist) rfl (by
    intro k hk
    rw [hrate, hz]
    unfold startPairs
    rw [hrun k]
    have hst : ∀ x, eulerBin cfg.mec2 (balanceRate cfg.mec2 a B) (fun _ => 0) (fun _ => 0)
        (min dt (cfg.totalTime - k * dt)) (balanceSeq cfg.mec2 a B dt cfg.totalTime (x, dist.eval x) k)
        = balanceSeq cfg.mec2 a B dt cfg.totalTime (x, dist.eval x) (k + 1) := fun _ => rfl
    refine ⟨?_, ?_, ?_, ?_, ?_, ?_⟩
    · simp only [List.mem_map]
      rintro p ⟨x, hx, rfl⟩
      rw [hst x]
      exact hpos (k + 1) (hnext k hk) x hx
    · simp only [List.mem_map]
      rintro p ⟨x, hx, rfl⟩
      rw [(balance_step hm _).2.1]
      have i := hinv k (hprev k hk) x hx
      have hy := hpos k (hprev k hk) x hx
      have ht : 0 < min dt (cfg.totalTime - k * dt) := stepLen_pos hp hk
      have h3 : B * (balanceSeq cfg.mec2 a B dt cfg.totalTime (x, dist.eval x) k).1 * min dt (cfg.totalTime - k * dt)
          ≤ B * max x (a / B) * dt := by
        have := i.high
        have := min_le_left dt (cfg.totalTime - k * dt)
        have : 0 < max x (a / B) := lt_of_lt_of_le hG (le_max_right _ _)
        gcongr
      have hat : 0 < a * min dt (cfg.totalTime - k * dt) := by positivity
      refine mul_pos (by positivity) ?_
      have h4 := h1 x hx
      rcases max_choice x (a / B) with h | h <;> rw [h] at h3
      · linarith
      · rw [hBG] at h3; linarith
    · simp only [List.mem_map]
      rintro p ⟨x, hx, rfl⟩
      rw [hst x]
      exact (hinv (k + 1) (hnext k hk) x hx).nonneg (hc.nonneg x hx)
    · rw [List.pairwise_map, List.pairwise_map]
      refine (balance_order hm ha hB hp hT h.wf.gammaPos h1 h2 dist.eval h.wf.gammaSorted (k + 1) (hnext k hk)).imp_of_mem ?_
      intro x y hx hy hxy
      rw [hst x, hst y]
      exact hlog _ _ (hpos (k + 1) (hnext k hk) x hx) hxy
    · intro thr hthr
      rw [hmerge] at hthr
      simp at hthr
    · right
      rw [List.filter_map, List.length_map]
      refine filter_pos_length (f := dist.eval) ?_ hc.interp
      intro x hx h0
      simp only
      rw [hst x]
      exact ((hinv (k + 1) (hnext k hk) x hx).pos h0).ne')
  rw [hrate, hz] at main
  obtain ⟨m1, m2, m3⟩ := main
  have hN : ∀ k, k ≤ ⌈cfg.totalTime / dt⌉₊ → ∀ i, i < k → (i : ℝ) * dt < cfg.totalTime := by
    intro k hkN i hi
    have : (i : ℝ) < cfg.totalTime / dt := Nat.lt_ceil.1 (lt_of_lt_of_le hi hkN)
    rwa [lt_div_iff₀ hp] at this
  refine ⟨m1, fun r d hr => ?_, fun k c hcb => ?_⟩
  · obtain ⟨e1, e2, -⟩ := m2 r d hr
    unfold startPairs at e1 e2
    rw [hrun] at e1 e2
    refine ⟨fun x => balanceSeq cfg.mec2 a B dt cfg.totalTime (x, dist.eval x) ⌈cfg.totalTime / dt⌉₊,
      by rw [e1, List.map_map]; rfl, by rw [e2, List.map_map]; rfl, fun x hx => ?_⟩
    have hle : cfg.totalTime ≤ (⌈cfg.totalTime / dt⌉₊ : ℝ) * dt := by
      rw [← div_le_iff₀ hp]; exact Nat.le_ceil _
    have := hinv _ (hN _ le_rfl) x hx
    rwa [min_eq_right hle] at this
  · obtain ⟨ht, hkN⟩ := C02_callback_times h.fixed hp hcb
    have hk0 : 0 < k := by obtain ⟨s, -, h0, -⟩ := hcb; exact h0
    obtain ⟨e1, e2⟩ := (m3 k hk0 hkN).2 c hcb
    unfold startPairs at e1 e2
    rw [hrun] at e1 e2
    refine ⟨fun x => balanceSeq cfg.mec2 a B dt cfg.totalTime (x, dist.eval x) k,
      by rw [e1, List.map_map]; rfl, by rw [e2, List.map_map]; rfl, fun x hx => ?_⟩
    rw [ht]
    exact hinv k (hN k hkN) x hx

/-- a run with the package's Fermi acceleration and synchrotron losses -/
structure BalanceRun (k : Consts) (cfg : Cfg ℝ) (t_acc B dt : ℝ) (dist : Dist ℝ) : Prop where
  consts : k.Pos
  wf : cfg.WF
  num : cfg.num = realNumerics
  mec2 : cfg.mec2 = k.mec2
  en : ∃ n1 n2, cfg.enFns = [(n1, fermiAcceleration k t_acc), (n2, synchrotronLoss k B)]
  rel : cfg.relFns = []
  abs : cfg.absFns = []
  fixed : cfg.stepDuration = .fixed dt
  euler : cfg.heun = false
  noGroups : cfg.subgroups = none
  noBounds : cfg.gammaBounds = none
  noMerge : cfg.mergeCloser = none
  start : CleanStart cfg dist
  acc : 0 < t_acc
  field : B ≠ 0
  dtpos : 0 < dt
  timepos : 0 ≤ cfg.totalTime
  resolvesCooling : ∀ x ∈ cfg.initialGamma, 2.0001 * (coolingRate k B * x * dt) < 1
  resolvesAcceleration : 2.0001 * dt < t_acc

theorem coolingRate_pos {k : Consts} (hk : k.Pos) {B : ℝ} (hB : B ≠ 0) : 0 < coolingRate k B := by
  have := mec2_pos hk; have := hk.sigma_T; have := hk.c
  have : 0 < B ^ 2 := by positivity
  unfold coolingRate
  positivity

/-- **C117** for the ready-made functions `fermi_acceleration` and `synchrotron_loss`: the particles gather at the Lorentz
factor `1 / (b t_acc)`, `b = 4 σ_T c U_B / (3 m_e c²)`, at which the two rates cancel. -/
theorem C117_fermi_synchrotron {k : Consts} {cfg : Cfg ℝ} {t_acc B dt : ℝ} {dist : Dist ℝ}
    (h : BalanceRun k cfg t_acc B dt dist) :
    (∃ r d, Returns cfg dist r d) ∧
    ∀ r d, Returns cfg dist r d → ∃ g n : ℝ → ℝ, r.gamma = cfg.initialGamma.map g ∧ r.density = cfg.initialGamma.map n ∧
      ∀ x ∈ cfg.initialGamma,
        Approaches (Real.exp (-(coolingRate k B * min x (1 / (coolingRate k B * t_acc)) * cfg.totalTime)))
          (1 / (coolingRate k B * t_acc)) x (g x) := by
  obtain ⟨n1, n2, hen⟩ := h.en
  have hb := coolingRate_pos h.consts h.field
  have ht := h.acc
  have hl : LocalRates cfg [(n1, fun g => 1 / t_acc * (g * cfg.mec2)), (n2, fun g => -(coolingRate k B * cfg.mec2 * g ^ 2))]
      [] [] dt := by
    refine ⟨h.wf, ?_, h.rel, h.abs, h.fixed, h.euler, h.noGroups, h.noBounds⟩
    rw [hen, h.mec2]
    simp only [List.map_cons, List.map_nil, List.cons.injEq, Prod.mk.injEq, true_and, and_true]
    refine ⟨?_, ?_⟩
    · funext d p
      unfold fermiAcceleration
      apply List.map_congr_left
      intro g _
      ring
    · funext d p
      unfold synchrotronLoss
      apply List.map_congr_left
      intro g _
      have := ne_of_gt (mec2_pos h.consts)
      unfold Synchrotron.energyLossRate coolingRate
      field_simp
  obtain ⟨m1, m2, -⟩ := C117_balance hl h.dtpos h.timepos (h.num ▸ realLog_strict) (one_div_pos.2 ht) hb h.noMerge h.start
    h.resolvesCooling (by
      have := h.resolvesAcceleration
      rw [one_div_mul_eq_div, mul_div_assoc', div_lt_one ht]
      exact this)
  refine ⟨m1, fun r d hr => ?_⟩
  obtain ⟨S, e1, e2, hS⟩ := m2 r d hr
  refine ⟨_, _, e1, e2, fun x hx => ?_⟩
  have := (hS x hx).near
  rwa [show 1 / t_acc / coolingRate k B = 1 / (coolingRate k B * t_acc) by rw [div_div, mul_comm]] at this

/-- **C117**: and in ever longer runs they all end there -/
theorem C117_limit {k : Consts} {t_acc B : ℝ} {g0 : List ℝ} (cfg : ℕ → Cfg ℝ) (dt : ℕ → ℝ) (dist : Dist ℝ)
    (h : ∀ N, BalanceRun k (cfg N) t_acc B (dt N) dist) (hg : ∀ N, (cfg N).initialGamma = g0)
    (hT : Tendsto (fun N => (cfg N).totalTime) atTop atTop) {r : ℕ → Result ℝ} {d : ℕ → Dist ℝ}
    (hr : ∀ N, Returns (cfg N) dist (r N) (d N)) :
    ∃ g : ℕ → ℝ → ℝ, (∀ N, (r N).gamma = g0.map (g N)) ∧
      ∀ x ∈ g0, Tendsto (fun N => g N x) atTop (𝓝 (1 / (coolingRate k B * t_acc))) := by
  choose g n e1 e2 hn using fun N => (C117_fermi_synchrotron (h N)).2 _ _ (hr N)
  refine ⟨g, fun N => by rw [e1, hg], fun x hx => ?_⟩
  have hx' : ∀ N, x ∈ (cfg N).initialGamma := fun N => by rw [hg]; exact hx
  have hb := coolingRate_pos (h 0).consts (h 0).field
  have hx0 := (h 0).wf.gammaPos x (hx' 0)
  have hbal : 0 < 1 / (coolingRate k B * t_acc) := by have := (h 0).acc; positivity
  have hc : 0 < coolingRate k B * min x (1 / (coolingRate k B * t_acc)) := mul_pos hb (lt_min hx0 hbal)
  have hexp : Tendsto (fun N => Real.exp (-(coolingRate k B * min x (1 / (coolingRate k B * t_acc)) * (cfg N).totalTime))
      * |x - 1 / (coolingRate k B * t_acc)|) atTop (𝓝 0) := by
    have h2 := (Real.tendsto_exp_neg_atTop_nhds_zero.comp (hT.const_mul_atTop hc)).mul_const
      |x - 1 / (coolingRate k B * t_acc)|
    rw [zero_mul] at h2
    exact h2
  rw [tendsto_iff_norm_sub_tendsto_zero]
  exact squeeze_zero (fun N => norm_nonneg _) (fun N => (hn N x (hx' N)).2.2) hexp

/-! ### the hypotheses can be met -/

noncomputable def balanceCfg (k : Consts) (t_acc B dt T : ℝ) : Cfg ℝ := { physCfg k (fermiAcceleration k t_acc) dt T with
  enFns := [("acc", fermiAcceleration k t_acc), ("syn", synchrotronLoss k B)] }

/-- any constants, any field, any total time: steps short enough exist -/
example {k : Consts} (hk : k.Pos) {B T : ℝ} (hB : B ≠ 0) (hT : 0 < T) :
    ∃ dt, BalanceRun k (balanceCfg k 7 B dt T) 7 B dt physDist := by
  have hb := coolingRate_pos hk hB
  refine ⟨1 / (1 + 300 * coolingRate k B), hk, { physCfg_wf hk (fermiAcceleration k 7) _ T with
    keysEn := by simp [balanceCfg] }, rfl, rfl, ⟨"acc", "syn", rfl⟩, rfl, rfl, rfl, rfl, rfl, rfl, rfl, ?_, by norm_num, hB,
    by positivity, hT.le, ?_, ?_⟩
  · have hs := physCfg_start k (fermiAcceleration k 7) (1 / (1 + 300 * coolingRate k B)) T
    exact ⟨hs.two, hs.order, hs.apart, hs.nonneg, hs.interp⟩
  · intro x hx
    have hx : x = 10 ∨ x = 100 := by simpa [balanceCfg, physCfg] using hx
    rw [mul_one_div, mul_div_assoc', div_lt_one (by positivity)]
    rcases hx with rfl | rfl <;> linarith
  · rw [mul_one_div, div_lt_iff₀ (by positivity)]
    linarith

end Verif.TE
