import Verif.Props.TEAutoCooling
import Verif.Props.TEBalance

/-
C121: acceleration against synchrotron losses with automatic steps never overshoots the balance.
-/

namespace Verif.TE

open Filter Topology

/-- a run with the package's Fermi acceleration and synchrotron losses and automatic steps; the thresholds are not above
one together -/
structure AutoBalanceRun (k : Consts) (cfg : Cfg ℝ) (t_acc B : ℝ) (dist : Dist ℝ) : Prop where
  consts : k.Pos
  wf : cfg.WF
  num : cfg.num = realNumerics
  mec2 : cfg.mec2 = k.mec2
  en : ∃ n1 n2, cfg.enFns = [(n1, fermiAcceleration k t_acc), (n2, synchrotronLoss k B)]
  rel : cfg.relFns = []
  abs : cfg.absFns = []
  auto : cfg.stepDuration = .auto
  noOpt : cfg.optimize = false
  euler : cfg.heun = false
  noGroups : cfg.subgroups = none
  noBounds : cfg.gammaBounds = none
  noMerge : cfg.mergeCloser = none
  start : CleanStart cfg dist
  acc : 0 < t_acc
  field : B ≠ 0
  timepos : 0 ≤ cfg.totalTime
  strict : cfg.maxEnergyChange + cfg.maxDensityChange / (1 + cfg.maxDensityChange) ≤ 1

theorem AutoBalanceRun.localRates {k : Consts} {cfg : Cfg ℝ} {t_acc B : ℝ} {dist : Dist ℝ}
    (h : AutoBalanceRun k cfg t_acc B dist) : ∃ n1 n2, ∀ dt, LocalRates (withStep cfg dt)
      [(n1, fun g => 1 / t_acc * (g * cfg.mec2)), (n2, fun g => -(coolingRate k B * cfg.mec2 * g ^ 2))] [] [] dt := by
  obtain ⟨n1, n2, hen⟩ := h.en
  refine ⟨n1, n2, fun dt => ⟨{ h.wf with
    optAuto := fun ho => by
      have : cfg.optimize = true := ho
      rw [h.noOpt] at this
      exact absurd this (by simp)
    thresholds := fun ha => by simp [withStep] at ha }, ?_, h.rel, h.abs, rfl, h.euler, h.noGroups, h.noBounds⟩⟩
  show cfg.enFns = _
  rw [hen, h.mec2]
  simp only [List.map_cons, List.map_nil, List.cons.injEq, Prod.mk.injEq, true_and, and_true]
  refine ⟨?_, ?_⟩
  · funext d p
    unfold fermiAcceleration
    apply List.map_congr_left
    intro g _
    ring
  · funext d p
    unfold synchrotronLoss
    apply List.map_congr_left
    intro g _
    have := ne_of_gt (mec2_pos h.consts)
    unfold Synchrotron.energyLossRate coolingRate
    field_simp

theorem timeEdge_balance {cfg : Cfg ℝ} (hm : 0 < cfg.mec2) {a b y : ℝ} (hy : 0 < y) :
    timeEdge cfg (y * cfg.mec2) (balanceRate cfg.mec2 a b y)
      = if a - b * y ≠ 0 then ((cfg.maxEnergyChange / |a - b * y| : ℝ) : WithTop ℝ) else ⊤ := by
  have e : balanceRate cfg.mec2 a b y = y * cfg.mec2 * (a - b * y) := by
    unfold balanceRate
    ring
  have hp : 0 < y * cfg.mec2 := by positivity
  unfold timeEdge
  rw [e]
  by_cases h : a - b * y = 0
  · simp [h]
  · rw [if_pos (mul_ne_zero hp.ne' h), if_pos h, abs_mul, abs_of_pos hp, mul_comm (y * cfg.mec2) |_|,
      mul_div_mul_right _ _ hp.ne']

theorem timeDensity_balance {cfg : Cfg ℝ} (hm : 0 < cfg.mec2) {a b y : ℝ} (hy : 0 < y) :
    timeDensity cfg (y * cfg.mec2) (y * (1 + binSizeFactor) * cfg.mec2) (balanceRate cfg.mec2 a b y)
      (balanceRate cfg.mec2 a b (y * (1 + binSizeFactor)))
      = if a - 2.0001 * (b * y) ≠ 0 then
          ((if 1 / (a - 2.0001 * (b * y)) > 0 then 1 / (a - 2.0001 * (b * y)) * cfg.maxDensityChange
            else -(1 / (a - 2.0001 * (b * y))) * cfg.maxDensityChange / (1 + cfg.maxDensityChange) : ℝ) : WithTop ℝ)
        else ⊤ := by
  have hf : (binSizeFactor : ℝ) = 1 / 10000 := rfl
  have hp : 0 < y * cfg.mec2 / 10000 := by positivity
  have e1 : balanceRate cfg.mec2 a b (y * (1 + binSizeFactor)) - balanceRate cfg.mec2 a b y
      = y * cfg.mec2 / 10000 * (a - 2.0001 * (b * y)) := by
    rw [hf]
    unfold balanceRate
    ring
  have e2 : y * (1 + binSizeFactor) * cfg.mec2 - y * cfg.mec2 = y * cfg.mec2 / 10000 := by
    rw [hf]
    ring
  unfold timeDensity
  rw [e1, e2]
  by_cases h : a - 2.0001 * (b * y) = 0
  · simp [h]
  · have e3 : y * cfg.mec2 / 10000 / (y * cfg.mec2 / 10000 * (a - 2.0001 * (b * y))) = 1 / (a - 2.0001 * (b * y)) := by
      rw [div_mul_eq_div_div, div_self hp.ne']
    rw [if_pos (mul_ne_zero hp.ne' h), if_pos h, e3]

/-- the limit of a bin: long enough to make progress, short enough for the step not to cross the balance -/
theorem maxTimeBin_balance {cfg : Cfg ℝ} (hm : 0 < cfg.mec2) {a b y : ℝ} (ha : 0 < a) (hb : 0 < b) (hy : 0 < y)
    (he : 0 < cfg.maxEnergyChange) (hd : 0 < cfg.maxDensityChange) :
    ∃ r : ℝ, maxTimeBin cfg (y * cfg.mec2) (y * (1 + binSizeFactor) * cfg.mec2) (balanceRate cfg.mec2 a b y)
        (balanceRate cfg.mec2 a b (y * (1 + binSizeFactor))) 0 0 = (r : WithTop ℝ) ∧
      |a - b * y| * r ≤ cfg.maxEnergyChange ∧
      (2.0001 * (b * y) - a) * r ≤ cfg.maxDensityChange / (1 + cfg.maxDensityChange) ∧
      min cfg.maxEnergyChange (cfg.maxDensityChange / (1 + cfg.maxDensityChange)) / (a + 2.0001 * (b * y)) ≤ r := by
  have hf : (binSizeFactor : ℝ) = 1 / 10000 := rfl
  have hy' : 0 < y * (1 + binSizeFactor) := by rw [hf]; positivity
  have hu : 0 < b * y := by positivity
  set q := cfg.maxDensityChange / (1 + cfg.maxDensityChange) with hq
  have hq0 : 0 < q := by positivity
  have hqd : q ≤ cfg.maxDensityChange := by
    rw [hq, div_le_iff₀ (by linarith)]
    nlinarith
  have hD : 0 < a + 2.0001 * (b * y) := by positivity
  have l1 := timeEdge_balance (cfg := cfg) hm (a := a) (b := b) hy
  have l2 := timeEdge_balance (cfg := cfg) hm (a := a) (b := b) hy'
  have l3 := timeDensity_balance (cfg := cfg) hm (a := a) (b := b) hy
  have e2 : b * (y * (1 + binSizeFactor)) = 1.0001 * (b * y) := by rw [hf]; ring
  rw [e2] at l2
  set u := b * y with hudef
  have hrel : timeRel (0 : ℝ) = ⊤ := by simp [timeRel]
  have habs : timeAbs cfg (0 : ℝ) = ⊤ := by simp [timeAbs]
  have hmax : maxTimeBin cfg (y * cfg.mec2) (y * (1 + binSizeFactor) * cfg.mec2) (balanceRate cfg.mec2 a b y)
      (balanceRate cfg.mec2 a b (y * (1 + binSizeFactor))) 0 0
      = min (min (timeEdge cfg (y * cfg.mec2) (balanceRate cfg.mec2 a b y))
          (timeEdge cfg (y * (1 + binSizeFactor) * cfg.mec2) (balanceRate cfg.mec2 a b (y * (1 + binSizeFactor)))))
        (timeDensity cfg (y * cfg.mec2) (y * (1 + binSizeFactor) * cfg.mec2) (balanceRate cfg.mec2 a b y)
          (balanceRate cfg.mec2 a b (y * (1 + binSizeFactor)))) := by
    unfold maxTimeBin
    rw [hrel, habs, min_self, min_eq_left (le_top : timeDensity cfg _ _ _ _ ≤ ⊤)]
  rw [hmax]
  set v1 := timeEdge cfg (y * cfg.mec2) (balanceRate cfg.mec2 a b y)
  set v2 := timeEdge cfg (y * (1 + binSizeFactor) * cfg.mec2) (balanceRate cfg.mec2 a b (y * (1 + binSizeFactor)))
  set v3 := timeDensity cfg (y * cfg.mec2) (y * (1 + binSizeFactor) * cfg.mec2) (balanceRate cfg.mec2 a b y)
          (balanceRate cfg.mec2 a b (y * (1 + binSizeFactor)))
  have hfin : min (min v1 v2) v3 ≠ ⊤ := by
    intro htop
    have h12 : min v1 v2 = ⊤ := top_le_iff.1 (htop ▸ min_le_left _ _)
    have h1 : v1 = ⊤ := top_le_iff.1 (h12 ▸ min_le_left _ _)
    have h2 : v2 = ⊤ := top_le_iff.1 (h12 ▸ min_le_right _ _)
    have z1 : a - u = 0 := by
      by_contra hne
      rw [l1, if_pos hne] at h1
      exact WithTop.coe_ne_top h1
    have z2 : a - 1.0001 * u = 0 := by
      by_contra hne
      rw [l2, if_pos hne] at h2
      exact WithTop.coe_ne_top h2
    linarith
  obtain ⟨r, hr⟩ := WithTop.ne_top_iff_exists.1 hfin
  have r1 : (r : WithTop ℝ) ≤ v1 := hr ▸ (min_le_left _ _).trans (min_le_left _ _)
  have r3 : (r : WithTop ℝ) ≤ v3 := hr ▸ min_le_right _ _
  have hlow : ((min cfg.maxEnergyChange q / (a + 2.0001 * u) : ℝ) : WithTop ℝ) ≤ r := by
    have hmin0 : 0 < min cfg.maxEnergyChange q := lt_min he hq0
    rw [hr]
    refine le_min (le_min ?_ ?_) ?_
    · rw [l1]
      split_ifs with hne
      · refine WithTop.coe_le_coe.2 ?_
        have : 0 < |a - u| := abs_pos.2 hne
        refine div_le_div₀ he.le (min_le_left _ _) this ?_
        rw [abs_le]
        constructor <;> linarith
      · exact le_top
    · rw [l2]
      split_ifs with hne
      · refine WithTop.coe_le_coe.2 ?_
        have : 0 < |a - 1.0001 * u| := abs_pos.2 hne
        refine div_le_div₀ he.le (min_le_left _ _) this ?_
        rw [abs_le]
        constructor <;> linarith
      · exact le_top
    · rw [l3]
      split_ifs with hne hpos
      · refine WithTop.coe_le_coe.2 ?_
        have hp : 0 < a - 2.0001 * u := one_div_pos.1 hpos
        rw [one_div_mul_eq_div]
        exact div_le_div₀ hd.le ((min_le_right _ _).trans hqd) hp (by linarith)
      · refine WithTop.coe_le_coe.2 ?_
        have hn : a - 2.0001 * u < 0 := lt_of_le_of_ne (not_lt.1 fun h => hpos (one_div_pos.2 h)) hne
        have e : -(1 / (a - 2.0001 * u)) * cfg.maxDensityChange / (1 + cfg.maxDensityChange) = q / (2.0001 * u - a) := by
          rw [hq, ← neg_sub (2.0001 * u) a, one_div, inv_neg, neg_neg]
          have : 2.0001 * u - a ≠ 0 := by linarith
          field_simp
        rw [e]
        exact div_le_div₀ hq0.le (min_le_right _ _) (by linarith) (by linarith)
      · exact le_top
  refine ⟨r, hr.symm, ?_, ?_, WithTop.coe_le_coe.1 hlow⟩
  · by_cases hne : a - u = 0
    · rw [hne, abs_zero, zero_mul]
      exact he.le
    · rw [l1, if_pos hne] at r1
      have h1 := WithTop.coe_le_coe.1 r1
      rw [le_div_iff₀ (abs_pos.2 hne)] at h1
      linarith
  · have hr0 : 0 ≤ r := le_trans (div_nonneg (le_min he.le hq0.le) hD.le) (WithTop.coe_le_coe.1 hlow)
    rcases le_or_gt (2.0001 * u - a) 0 with hle | hgt
    · exact (mul_nonpos_of_nonpos_of_nonneg hle hr0).trans hq0.le
    · have hne : a - 2.0001 * u ≠ 0 := by linarith
      have hneg : ¬ 1 / (a - 2.0001 * u) > 0 := fun h => by
        have := one_div_pos.1 h
        linarith
      rw [l3, if_pos hne, if_neg hneg] at r3
      have e : -(1 / (a - 2.0001 * u)) * cfg.maxDensityChange / (1 + cfg.maxDensityChange) = q / (2.0001 * u - a) := by
        rw [hq, ← neg_sub (2.0001 * u) a, one_div, inv_neg, neg_neg]
        field_simp
      rw [e] at r3
      have h1 := WithTop.coe_le_coe.1 r3
      rw [le_div_iff₀ hgt] at h1
      linarith

theorem BalanceInv.start {a B x n : ℝ} : BalanceInv a B 0 x n (x, n) :=
  ⟨min_le_left _ _, le_max_left _ _, ⟨id, id, by simp⟩, id, id⟩

theorem BalanceInv.next {mec2 a B s t x n : ℝ} {p : ℝ × ℝ} (i : BalanceInv a B s x n p) (hm : 0 < mec2) (ha : 0 < a)
    (hB : 0 < B) (hx : 0 < x) (ht : 0 < t) (h1 : B * p.1 * t ≤ 1) (hden : 0 < 1 + a * t - 2.0001 * (B * p.1 * t)) :
    BalanceInv a B (s + t) x n (eulerBin mec2 (balanceRate mec2 a B) (fun _ => 0) (fun _ => 0) t p) := by
  have hG : 0 < a / B := div_pos ha hB
  have hBG : B * (a / B) = a := by field_simp
  obtain ⟨s1, -, s3⟩ := balance_step (a := a) (B := B) (t := t) hm p
  set q := eulerBin mec2 (balanceRate mec2 a B) (fun _ => 0) (fun _ => 0) t p with hq
  have hy : 0 < p.1 := lt_of_lt_of_le (lt_min hx hG) i.low
  have hpos : 0 ≤ B * p.1 * t := by positivity
  have hfac : 0 ≤ 1 - B * p.1 * t := by linarith
  have hgap : q.1 - a / B = (p.1 - a / B) * (1 - B * p.1 * t) := by
    rw [s1]
    have : a = B * (a / B) := hBG.symm
    generalize a / B = G at this
    rw [this]
    ring
  have hside := i.near
  have hlow : min x (a / B) ≤ q.1 := by
    rcases le_total (a / B) p.1 with h | h
    · have := mul_nonneg (sub_nonneg.2 h) hfac
      exact (min_le_right _ _).trans (by linarith)
    · have := mul_nonneg (sub_nonneg.2 h) hpos
      exact i.low.trans (by linarith)
  have hhigh : q.1 ≤ max x (a / B) := by
    rcases le_total (a / B) p.1 with h | h
    · have := mul_nonneg (sub_nonneg.2 h) hpos
      exact le_trans (by linarith) i.high
    · have := mul_nonneg (sub_nonneg.2 h) hfac
      exact le_trans (by linarith) (le_max_right _ _)
  refine ⟨hlow, hhigh, ⟨fun h => ?_, fun h => ?_, ?_⟩, fun h => ?_, fun h => ?_⟩
  · have := mul_nonneg (sub_nonneg.2 (hside.1 h)) hfac
    linarith
  · have := mul_nonneg (sub_nonneg.2 (hside.2.1 h)) hfac
    linarith
  · rw [hgap, abs_mul, abs_of_nonneg hfac]
    have hexp : 1 - B * p.1 * t ≤ Real.exp (-(B * min x (a / B) * t)) := by
      have h3 := Real.add_one_le_exp (-(B * min x (a / B) * t))
      have h4 : B * min x (a / B) * t ≤ B * p.1 * t := by
        have := i.low
        gcongr
      linarith
    have hsplit : Real.exp (-(B * min x (a / B) * (s + t)))
        = Real.exp (-(B * min x (a / B) * s)) * Real.exp (-(B * min x (a / B) * t)) := by
      rw [← Real.exp_add]
      congr 1
      ring
    rw [hsplit]
    calc |p.1 - a / B| * (1 - B * p.1 * t)
        ≤ (Real.exp (-(B * min x (a / B) * s)) * |x - a / B|) * Real.exp (-(B * min x (a / B) * t)) :=
          mul_le_mul hside.2.2 hexp hfac (by positivity)
      _ = _ := by ring
  · rw [s3 hy]; exact div_nonneg (i.nonneg h) hden.le
  · rw [s3 hy]; exact div_pos (i.pos h) hden

/-- the states of the run -/
def BalanceState (cfg : Cfg ℝ) (n1 n2 : String) (a b : ℝ) (dist : Dist ℝ) (s : State ℝ) : Prop :=
  ∃ (S : ℝ → ℝ × ℝ) (el : ℝ) (tl : List (WithTop ℝ)) (d : Dist ℝ),
    s = localState [(n1, fun g => a * (g * cfg.mec2)), (n2, fun g => -(b * cfg.mec2 * g ^ 2))] [] []
      (cfg.initialGamma.map S) el tl d ∧
    0 ≤ el ∧ el ≤ cfg.totalTime ∧ (∀ x ∈ cfg.initialGamma, BalanceInv a b el x (dist.eval x) (S x)) ∧
    cfg.initialGamma.Pairwise fun x y => (S x).1 < (S y).1

/-- a lower bound of the steps of bins below `M` -/
noncomputable def shortest (cfg : Cfg ℝ) (a b M : ℝ) : ℝ :=
  min cfg.maxEnergyChange (cfg.maxDensityChange / (1 + cfg.maxDensityChange)) / (a + 2.0001 * (b * M))

theorem balance_auto_step {k : Consts} {cfg : Cfg ℝ} {t_acc B : ℝ} {dist : Dist ℝ} (h : AutoBalanceRun k cfg t_acc B dist)
    {n1 n2 : String} (hl : ∀ dt, LocalRates (withStep cfg dt)
      [(n1, fun g => 1 / t_acc * (g * cfg.mec2)), (n2, fun g => -(coolingRate k B * cfg.mec2 * g ^ 2))] [] [] dt) {M : ℝ}
    (hM : ∀ x ∈ cfg.initialGamma, max x (1 / t_acc / coolingRate k B) ≤ M) {s : State ℝ}
    (hs : BalanceState cfg n1 n2 (1 / t_acc) (coolingRate k B) dist s) (hlt : s.elapsed < cfg.totalTime) :
    ∃ s', step cfg s = .ok s' ∧ BalanceState cfg n1 n2 (1 / t_acc) (coolingRate k B) dist s' ∧
      (cfg.totalTime ≤ s'.elapsed ∨ s.elapsed + shortest cfg (1 / t_acc) (coolingRate k B) M ≤ s'.elapsed) := by
  obtain ⟨S, el, tl, d, rfl, h0, hT, hinv, hord⟩ := hs
  change el < cfg.totalTime at hlt
  have hb := coolingRate_pos h.consts h.field
  have ha : 0 < 1 / t_acc := one_div_pos.2 h.acc
  have hth := h.wf.thresholds h.auto
  have hE := hth.1
  have hDn := hth.2.1
  have hstrict := h.strict
  have hm := h.wf.mec2
  set b := coolingRate k B with hbdef
  set a := 1 / t_acc with hadef
  set q := cfg.maxDensityChange / (1 + cfg.maxDensityChange) with hq
  have hq1 : q < 1 := by
    rw [hq, div_lt_one (by linarith)]
    linarith
  have hG : 0 < a / b := div_pos ha hb
  set enL : List (String × (ℝ → ℝ)) := [(n1, fun g => a * (g * cfg.mec2)), (n2, fun g => -(b * cfg.mec2 * g ^ 2))] with henL
  have hz : ∀ x : ℝ, totalOf ([] : List (String × (ℝ → ℝ))) x = 0 := fun x => by simp [totalOf]
  have he : ∀ x : ℝ, totalOf enL x = balanceRate cfg.mec2 a b x := fun x => by simp [totalOf, henL, balanceRate]
  have hrate : rateSum enL = balanceRate cfg.mec2 a b := by funext g; simp [rateSum, henL, balanceRate]
  have hz' : rateSum ([] : List (String × (ℝ → ℝ))) = fun _ => 0 := by funext g; simp [rateSum]
  have hne : cfg.initialGamma.map S ≠ [] := by
    intro e
    have := h.start.two
    rw [List.map_eq_nil_iff.1 e] at this
    simp at this
  have hypos : ∀ x ∈ cfg.initialGamma, 0 < (S x).1 := fun x hx =>
    lt_of_lt_of_le (lt_min (h.wf.gammaPos x hx) hG) (hinv x hx).low
  choose! f hf using fun (y : ℝ) (hy : 0 < y) => maxTimeBin_balance (cfg := cfg) hm ha hb hy hE hDn
  obtain ⟨p, hp, hle, hc⟩ := choose_general h.auto h.noOpt (enL := enL) (relL := []) (absL := []) hne
    (fun p _ => (hz p.1).ge) (f := fun p => f p.1) (fun p hp => by
      obtain ⟨x, hx, rfl⟩ := List.mem_map.1 hp
      rw [he, he, hz]
      exact (hf _ (hypos x hx)).1)
  obtain ⟨x0, hx0, rfl⟩ := List.mem_map.1 hp
  have hy0 := hypos x0 hx0
  change ∀ q ∈ cfg.initialGamma.map S, f (S x0).1 ≤ f q.1 at hle
  change ChoosesStep cfg enL [] [] (f (S x0).1) _ at hc
  set dt := f (S x0).1 with hdt
  have hshort : shortest cfg a b M ≤ dt := by
    refine le_trans ?_ (hf _ hy0).2.2.2
    have hle0 : (S x0).1 ≤ M := (hinv x0 hx0).high.trans (hM x0 hx0)
    have : 0 < min cfg.maxEnergyChange q := lt_min hE (by positivity)
    unfold shortest
    gcongr
  have hMpos : 0 < M := lt_of_lt_of_le (lt_of_lt_of_le hG (le_max_right _ _)) (hM x0 hx0)
  have hdt0 : 0 < dt := by
    refine lt_of_lt_of_le ?_ hshort
    have : 0 < min cfg.maxEnergyChange q := lt_min hE (by positivity)
    unfold shortest
    positivity
  set t := min dt (cfg.totalTime - el) with htdef
  have htpos : 0 < t := lt_min hdt0 (by linarith)
  have hfacts : ∀ x ∈ cfg.initialGamma, b * (S x).1 * t ≤ 1 ∧ 0 < 1 + a * t - 2.0001 * (b * (S x).1 * t) := by
    intro x hx
    obtain ⟨-, f1, f2, -⟩ := hf _ (hypos x hx)
    have hy := hypos x hx
    have htr : t ≤ f (S x).1 := (min_le_left _ _).trans (hle _ (List.mem_map.2 ⟨x, hx, rfl⟩))
    have hr0 : 0 < f (S x).1 := htpos.trans_le htr
    set r := f (S x).1
    set u := b * (S x).1 with hudef
    have hu : 0 < u := by positivity
    have g1 : (a - u) * r ≤ cfg.maxEnergyChange :=
      (mul_le_mul_of_nonneg_right (le_abs_self _) hr0.le).trans f1
    constructor
    · have h1 : u * r ≤ 1 := by nlinarith
      have h2 : u * t ≤ u * r := by gcongr
      linarith
    · rcases le_or_gt (2.0001 * u - a) 0 with hneg | hgt
      · have := mul_nonneg (neg_nonneg.2 hneg) htpos.le
        linarith
      · have h2 : (2.0001 * u - a) * t ≤ (2.0001 * u - a) * r := by gcongr
        linarith
  have hnext : ∀ x ∈ cfg.initialGamma, BalanceInv a b (el + t) x (dist.eval x)
      (eulerBin cfg.mec2 (balanceRate cfg.mec2 a b) (fun _ => 0) (fun _ => 0) t (S x)) := fun x hx =>
    (hinv x hx).next hm ha hb (h.wf.gammaPos x hx) htpos (hfacts x hx).1 (hfacts x hx).2
  have hnpos : ∀ x ∈ cfg.initialGamma,
      0 < (eulerBin cfg.mec2 (balanceRate cfg.mec2 a b) (fun _ => 0) (fun _ => 0) t (S x)).1 := fun x hx =>
    lt_of_lt_of_le (lt_min (h.wf.gammaPos x hx) hG) (hnext x hx).low
  have hord' : cfg.initialGamma.Pairwise fun x y =>
      (eulerBin cfg.mec2 (balanceRate cfg.mec2 a b) (fun _ => 0) (fun _ => 0) t (S x)).1
        < (eulerBin cfg.mec2 (balanceRate cfg.mec2 a b) (fun _ => 0) (fun _ => 0) t (S y)).1 := by
    refine hord.imp_of_mem ?_
    intro x y hx hy hxy
    rw [(balance_step hm _).1, (balance_step hm _).1]
    have hv := (hfacts y hy).2
    have hu0 := hypos x hx
    have hv0 := hypos y hy
    generalize (S x).1 = u at *
    generalize (S y).1 = v at *
    have h1 : b * u * t ≤ b * v * t := by gcongr
    have h2 : 0 < b * v * t := by positivity
    have hd := mul_pos (sub_pos.2 hxy) (show 0 < 1 + a * t - b * u * t - b * v * t by linarith)
    nlinarith
  have hsm : Smooth (withStep cfg dt) (rateSum enL) (rateSum []) (rateSum []) t (cfg.initialGamma.map S) := by
    rw [hrate, hz']
    refine ⟨?_, ?_, ?_, ?_, ?_, ?_⟩
    · simp only [List.mem_map]
      rintro p ⟨x, hx, rfl⟩
      exact hnpos x hx
    · simp only [List.mem_map]
      rintro p ⟨x, hx, rfl⟩
      show 0 < (S x).1 / 10000 + (balanceRate cfg.mec2 a b ((S x).1 * (1 + 1 / 10000)) - balanceRate cfg.mec2 a b (S x).1) * t
        / cfg.mec2
      rw [(balance_step hm _).2.1]
      have := hypos x hx
      exact mul_pos (by positivity) (hfacts x hx).2
    · simp only [List.mem_map]
      rintro p ⟨x, hx, rfl⟩
      exact (hnext x hx).nonneg (h.start.nonneg x hx)
    · show List.Pairwise _ ((cfg.initialGamma.map S).map fun p => cfg.num.log10 (eulerBin cfg.mec2 _ _ _ t p).1)
      rw [List.pairwise_map, List.pairwise_map]
      refine hord'.imp_of_mem ?_
      intro x y hx hy hxy
      rw [h.num]
      exact realLog_strict _ _ (hnpos x hx) hxy
    · intro thr hthr
      have : cfg.mergeCloser = some thr := hthr
      rw [h.noMerge] at this
      simp at this
    · right
      rw [List.filter_map, List.length_map]
      refine filter_pos_length (f := dist.eval) ?_ h.start.interp
      intro x hx h0'
      exact ((hnext x hx).pos h0').ne'
  have hlen : 2 ≤ (cfg.initialGamma.map S).length := by simpa using h.start.two
  obtain ⟨d', hstep⟩ := step_local (hl dt).local (hl dt).euler (el := el) (tl := tl) (dist := d) (t := t) rfl
    (hsm.binOK (hl dt).wf.mec2) (hsm.gridOK (hl dt).wf.mec2 hlen)
  rw [← step_withStep (hl dt).local hc] at hstep
  refine ⟨_, hstep, ⟨fun x => eulerBin cfg.mec2 (balanceRate cfg.mec2 a b) (fun _ => 0) (fun _ => 0) t (S x), el + t, tl, d',
    ?_, by linarith, ?_, hnext, hord'⟩, ?_⟩
  · congr 1
    rw [List.map_map]
    refine List.map_congr_left fun x hx => ?_
    show moveBin cfg.mec2 (totalOf enL) (totalOf []) (totalOf []) t (S x) = _
    rw [eulerBin_eq hm]
    have e1 : totalOf enL = balanceRate cfg.mec2 a b := funext he
    have e2 : totalOf ([] : List (String × (ℝ → ℝ))) = fun _ => 0 := funext hz
    rw [e1, e2]
  · have : t ≤ cfg.totalTime - el := min_le_right _ _
    linarith
  · show cfg.totalTime ≤ el + t ∨ el + _ ≤ el + t
    rcases min_choice dt (cfg.totalTime - el) with e | e
    · right
      rw [htdef, e]
      linarith
    · left
      rw [htdef, e]
      linarith

/-- a loop whose steps succeed, keep an invariant and have a least length ends -/
theorem loop_ends {cfg : Cfg ℝ} {I : State ℝ → Prop} {ε : ℝ} (hε : 0 < ε)
    (hstep : ∀ s, I s → s.elapsed < cfg.totalTime → ∃ s', step cfg s = .ok s' ∧ I s' ∧
      (cfg.totalTime ≤ s'.elapsed ∨ s.elapsed + ε ≤ s'.elapsed)) (n : ℕ) :
    ∀ s, I s → cfg.totalTime ≤ s.elapsed + n * ε → ∃ s', loop cfg n s = .ok (some s') := by
  induction n with
  | zero =>
    intro s _ hT
    refine ⟨s, ?_⟩
    have : ¬ s.elapsed < cfg.totalTime := by
      rw [Nat.cast_zero, zero_mul, add_zero] at hT
      exact hT.not_gt
    simp [loop, this]
  | succ n ih =>
    intro s hs hT
    by_cases hlt : s.elapsed < cfg.totalTime
    · obtain ⟨s', hst, hs', hor⟩ := hstep s hs hlt
      rw [loop, if_pos hlt, hst]
      refine ih s' hs' ?_
      rcases hor with e | e
      · exact e.trans (le_add_of_nonneg_right (by positivity))
      · push_cast at hT
        linarith
    · exact ⟨s, by rw [loop, if_neg hlt]⟩

/-- **C121**: Fermi acceleration against synchrotron losses with automatic steps returns, for every field, acceleration time,
grid and total time, and keeps every bin; at the end and at every callback each bin lies on the same side of the balance
`1 / (b t_acc)` as at the start, between its start and the balance, nearer to it at least by `exp(-b min(γ₀, balance) t)`, and
positive densities stay positive. -/
theorem C121_auto_balance {k : Consts} {cfg : Cfg ℝ} {t_acc B : ℝ} {dist : Dist ℝ}
    (h : AutoBalanceRun k cfg t_acc B dist) :
    (∃ r d, Returns cfg dist r d) ∧
    (∀ r d, Returns cfg dist r d → ∃ S : ℝ → ℝ × ℝ, r.gamma = cfg.initialGamma.map (fun x => (S x).1) ∧
      r.density = cfg.initialGamma.map (fun x => (S x).2) ∧
      ∀ x ∈ cfg.initialGamma, BalanceInv (1 / t_acc) (coolingRate k B) cfg.totalTime x (dist.eval x) (S x)) ∧
    (∀ j c, KthCallback cfg dist j c → ∃ S : ℝ → ℝ × ℝ, c.gamma = cfg.initialGamma.map (fun x => (S x).1) ∧
      c.density = cfg.initialGamma.map (fun x => (S x).2) ∧
      ∀ x ∈ cfg.initialGamma, BalanceInv (1 / t_acc) (coolingRate k B) c.totalTime x (dist.eval x) (S x)) := by
  obtain ⟨n1, n2, hl⟩ := h.localRates
  have hb := coolingRate_pos h.consts h.field
  have ha : 0 < 1 / t_acc := one_div_pos.2 h.acc
  obtain ⟨M, hM⟩ := (List.finite_toSet (cfg.initialGamma.map fun x => max x (1 / t_acc / coolingRate k B))).bddAbove
  have hM : ∀ x ∈ cfg.initialGamma, max x (1 / t_acc / coolingRate k B) ≤ M := fun x hx =>
    hM (List.mem_map.2 ⟨x, hx, rfl⟩)
  have hε : 0 < shortest cfg (1 / t_acc) (coolingRate k B) M := by
    obtain ⟨x, hx⟩ : ∃ x, x ∈ cfg.initialGamma := by
      have := h.start.two
      match hg : cfg.initialGamma with
      | [] => rw [hg] at this; simp at this
      | x :: _ => exact ⟨x, by simp⟩
    have hM0 : 0 < M := (h.wf.gammaPos x hx).trans_le ((le_max_left _ _).trans (hM x hx))
    have hth := h.wf.thresholds h.auto
    have hd := hth.2.1
    have : 0 < min cfg.maxEnergyChange (cfg.maxDensityChange / (1 + cfg.maxDensityChange)) :=
      lt_min hth.1 (by positivity)
    unfold shortest
    positivity
  have hstep := fun s hs hlt => balance_auto_step h hl hM (s := s) hs hlt
  have hstart : ∃ s, initState cfg dist = .ok s ∧ BalanceState cfg n1 n2 (1 / t_acc) (coolingRate k B) dist s := by
    have e := initState_local (hl 1).local (dist := dist)
    exact ⟨_, e, fun x => (x, dist.eval x), 0, _, _, rfl, le_rfl, h.timepos, fun x hx => BalanceInv.start, h.wf.gammaSorted⟩
  have hreach : ∀ s, Reach cfg dist s → BalanceState cfg n1 n2 (1 / t_acc) (coolingRate k B) dist s := by
    intro s hs
    induction hs with
    | init h0 =>
      obtain ⟨s0, e, hs0⟩ := hstart
      rw [e] at h0
      obtain rfl := Except.ok.inj h0
      exact hs0
    | step _ hg hs ih =>
      obtain ⟨s', e, hs', -⟩ := hstep _ ih hg
      rw [e] at hs
      obtain rfl := Except.ok.inj hs
      exact hs'
  refine ⟨?_, fun r d hr => ?_, fun j c hc => ?_⟩
  · obtain ⟨s0, e, hs0⟩ := hstart
    obtain ⟨n, hn⟩ := exists_nat_ge ((cfg.totalTime - s0.elapsed) / shortest cfg (1 / t_acc) (coolingRate k B) M)
    rw [div_le_iff₀ hε] at hn
    obtain ⟨s', hs'⟩ := loop_ends hε hstep n s0 hs0 (by linarith)
    refine ⟨_, _, n, s', ?_, rfl, rfl⟩
    unfold evaluate
    rw [e]
    exact hs'
  · obtain ⟨s, hs, hend, rfl, rfl⟩ := returns_reach hr
    obtain ⟨S, el, tl, d, rfl, h0, hT, hinv, -⟩ := hreach s hs
    have : el = cfg.totalTime := le_antisymm hT (not_lt.1 hend)
    subst this
    refine ⟨S, ?_, ?_, hinv⟩ <;> simp [resultOf, localState, Function.comp_def]
  · obtain ⟨s, hs, -, rfl⟩ := hc
    obtain ⟨S, el, tl, d, rfl, h0, hT, hinv, -⟩ := hreach s (reach_of_reachN hs)
    refine ⟨S, ?_, ?_, hinv⟩ <;> simp [callbackOf, localState, Function.comp_def]

/-- **C121**: and in ever longer runs all particles gather at the balance -/
theorem C121_limit {k : Consts} {t_acc B : ℝ} {g0 : List ℝ} (cfg : ℕ → Cfg ℝ) (dist : Dist ℝ)
    (h : ∀ N, AutoBalanceRun k (cfg N) t_acc B dist) (hg : ∀ N, (cfg N).initialGamma = g0)
    (hT : Tendsto (fun N => (cfg N).totalTime) atTop atTop) {r : ℕ → Result ℝ} {d : ℕ → Dist ℝ}
    (hr : ∀ N, Returns (cfg N) dist (r N) (d N)) :
    ∃ g : ℕ → ℝ → ℝ, (∀ N, (r N).gamma = g0.map (g N)) ∧
      ∀ x ∈ g0, Tendsto (fun N => g N x) atTop (𝓝 (1 / t_acc / coolingRate k B)) := by
  choose S e1 e2 hS using fun N => (C121_auto_balance (h N)).2.1 _ _ (hr N)
  refine ⟨fun N x => (S N x).1, fun N => by rw [e1, hg], fun x hx => ?_⟩
  have hx' : ∀ N, x ∈ (cfg N).initialGamma := fun N => by rw [hg]; exact hx
  have hb := coolingRate_pos (h 0).consts (h 0).field
  have hx0 := (h 0).wf.gammaPos x (hx' 0)
  have hbal : 0 < 1 / t_acc / coolingRate k B := by have := (h 0).acc; positivity
  have hc : 0 < coolingRate k B * min x (1 / t_acc / coolingRate k B) := mul_pos hb (lt_min hx0 hbal)
  have hexp : Tendsto (fun N => Real.exp (-(coolingRate k B * min x (1 / t_acc / coolingRate k B) * (cfg N).totalTime))
      * |x - 1 / t_acc / coolingRate k B|) atTop (𝓝 0) := by
    have h2 := (Real.tendsto_exp_neg_atTop_nhds_zero.comp (hT.const_mul_atTop hc)).mul_const
      |x - 1 / t_acc / coolingRate k B|
    rw [zero_mul] at h2
    exact h2
  rw [tendsto_iff_norm_sub_tendsto_zero]
  exact squeeze_zero (fun N => norm_nonneg _) (fun N => (hS N x (hx' N)).near.2.2) hexp

/-! ### the hypotheses can be met -/

example {k : Consts} (hk : k.Pos) {T : ℝ} (hT : 0 < T) : AutoBalanceRun k
    { balanceCfg k 7 2 1 T with stepDuration := .auto } 7 2 physDist := by
  have hs := physCfg_start k (fermiAcceleration k 7) 1 T
  exact ⟨hk, { physCfg_wf hk (fermiAcceleration k 7) 1 T with
    thresholds := by simp [balanceCfg, physCfg]
    optAuto := fun _ => rfl
    keysEn := by simp [balanceCfg] }, rfl, rfl, ⟨"acc", "syn", rfl⟩, rfl, rfl, rfl, rfl, rfl, rfl, rfl, rfl,
    ⟨hs.two, hs.order, hs.apart, hs.nonneg, hs.interp⟩, by norm_num, by norm_num, hT.le,
    by norm_num [balanceCfg, physCfg]⟩

end Verif.TE
