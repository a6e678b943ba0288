import Mathlib.Tactic.NormNum
import Mathlib.Tactic.FinCases
import Verif.Lemmas.Fresh
import Verif.Lemmas.Demo

/-
C01, C03-C08, C20: what a user sees of `TimeEvolution.evaluate()`.

`Observed cfg dist r d` : a run of `evaluate()` started with electron distribution `dist` returns the record
`r`, or passes it to the callback, at a moment when `blob.n_e` is `d`.  There is no bound on the number of
steps, bins, functions or subgroups.  `cfg.WF` collects the assumptions on the configuration.
-/

namespace Verif.TE

open Verif.Np

variable {K : Type} [Field K] [LinearOrder K] [IsStrictOrderedRing K]

/-! ### the configuration used in the examples -/

theorem demoCfg_wf : demoCfg.WF where
  lawful := toyNumerics_lawful
  mec2 := by norm_num [demoCfg]
  optAuto := by simp [demoCfg]
  thresholds := by simp [demoCfg]
  keysEn := by simp [demoCfg]
  keysRel := by simp [demoCfg]
  keysAbs := by simp [demoCfg]
  gammaPos := by simp [demoCfg]
  gammaSorted := by simp [demoCfg]; norm_num
  bounds := by
    intro lo hi h
    simp only [demoCfg, Option.some.injEq, Prod.mk.injEq] at h
    obtain ⟨rfl, rfl⟩ := h
    refine ⟨by norm_num, by norm_num [demoCfg], by norm_num [demoCfg, toyNumerics, mkNumerics, binSizeFactor], ?_⟩
    simp [demoCfg]; norm_num
  fractions := by simp [demoCfg]

theorem demoAuto_wf : demoAuto.WF where
  lawful := demoCfg_wf.lawful
  mec2 := demoCfg_wf.mec2
  optAuto := by simp [demoAuto]
  thresholds := by simp [demoAuto, demoCfg]
  keysEn := demoCfg_wf.keysEn
  keysRel := demoCfg_wf.keysRel
  keysAbs := demoCfg_wf.keysAbs
  gammaPos := demoCfg_wf.gammaPos
  gammaSorted := demoCfg_wf.gammaSorted
  bounds := demoCfg_wf.bounds
  fractions := demoCfg_wf.fractions

theorem demoDist_nonneg : ∀ x, 0 ≤ demoDist.eval x := by
  intro x
  simp only [demoDist]
  split
  · next h => exact div_nonneg (by norm_num) (by linarith [h.1])
  · exact le_refl _

theorem demoCfg_fractions : demoCfg.FractionsOK := by
  intro f h; simp [demoCfg] at h

theorem demoAuto_fractions : demoAuto.FractionsOK := by
  intro f h; simp [demoAuto, demoCfg] at h

/-! ### C01 -/

/-- Whenever `evaluate()` returns, the elapsed time it reports is the requested time (0 if that is
negative). -/
theorem C01_stops_at_total_time {cfg : Cfg K} {dist d : Dist K} {r : Result K}
    (h : Returns cfg dist r d) : r.totalTime = max 0 cfg.totalTime := by
  obtain ⟨s, hr, hg, rfl, rfl⟩ := returns_reach h
  have h1 := reach_elapsed hr
  show s.elapsed = _
  cases hr with
  | init h =>
    obtain ⟨_, -, -, -, -, -, -, -, -, e, -⟩ := initState_parts h
    rw [e] at hg ⊢
    rw [max_eq_left (not_lt.1 hg)]
  | step hr hg' hs =>
    have hnn : (0 : K) < cfg.totalTime ∨ cfg.totalTime ≤ 0 := lt_or_ge _ _
    rcases hnn with hp | hn
    · rw [max_eq_right (le_of_lt hp)] at h1 ⊢
      exact le_antisymm h1 (not_lt.1 hg)
    · -- a step is never taken for a non-positive total time
      exfalso
      have : ∀ {s : State K}, Reach cfg dist s → s.elapsed = 0 := by
        intro s hr
        induction hr with
        | init h =>
          obtain ⟨_, -, -, -, -, -, -, -, -, e, -⟩ := initState_parts h
          exact e
        | step _ hg _ ih => rw [ih] at hg; exact absurd hg (not_lt.2 hn)
      rw [this hr] at hg'
      exact absurd hg' (not_lt.2 hn)

/-- No callback reports a time beyond the requested one. -/
theorem C01_callback_time {cfg : Cfg K} {dist d : Dist K} {r : Result K}
    (h : CallsBack cfg dist r d) : r.totalTime ≤ cfg.totalTime := by
  obtain ⟨s, s', hr, hg, hs, rfl, rfl⟩ := h
  obtain ⟨_, _, _, _, _, _, t, _, _, _, -, -, -, ht, -, -, h6⟩ := step_parts hs
  obtain ⟨_, _, _, -, -, -, -, -, -, -, -, -, -, e, -⟩ := refresh_parts h6
  have := truncStep_le cfg _ _ |> (ht ▸ ·)
  show s'.elapsed ≤ _
  rw [e]; linarith

/-- A non-positive total time: `evaluate()` returns at once (or raises while computing the initial
rates), reporting time 0, the initial energies and the blob's own distribution on them, and the
blob keeps its distribution; the callback is never called. -/
theorem C01_nonpositive_time {cfg : Cfg K} {dist d : Dist K} {r : Result K} (hT : cfg.totalTime ≤ 0) :
    (Returns cfg dist r d → r.totalTime = 0 ∧ d = dist ∧ r.gamma = cfg.initialGamma ∧
      r.density = cfg.initialGamma.map dist.eval) ∧ ¬ CallsBack cfg dist r d ∧
    ∀ fuel, evaluate cfg dist fuel ≠ .ok none := by
  have key : ∀ {s : State K}, Reach cfg dist s → initState cfg dist = .ok s := by
    intro s hr
    induction hr with
    | init h => exact h
    | step _ hg _ ih =>
      obtain ⟨_, -, -, -, -, -, -, -, -, e, -⟩ := initState_parts ih
      rw [e] at hg
      exact absurd hg (not_lt.2 hT)
  refine ⟨?_, ?_, ?_⟩
  · intro h
    obtain ⟨s, hr, hg, rfl, rfl⟩ := returns_reach h
    obtain ⟨sub, -, e1, e2, -, -, -, -, -, e5, e6⟩ := initState_parts (key hr)
    exact ⟨e5, e6, by simp only [resultOf, e1]; rfl, e2⟩
  · rintro ⟨s, s', hr, hg, -⟩
    obtain ⟨_, -, -, -, -, -, -, -, -, e, -⟩ := initState_parts (key hr)
    rw [e] at hg
    exact absurd hg (not_lt.2 hT)
  · intro fuel h
    unfold evaluate at h
    obtain ⟨s0, h0, h⟩ := bind_ok_iff.1 h
    obtain ⟨_, -, -, -, -, -, -, -, -, e, -⟩ := initState_parts h0
    cases fuel with
    | zero => simp [loop, e, not_lt.2 hT] at h
    | succ n => simp [loop, e, not_lt.2 hT] at h

/-- the hypotheses are met by a run of two steps, the second being truncated -/
example : ∃ r d, Returns demoCfg demoDist r d ∧ r.totalTime = 3 / 4 := by
  obtain ⟨s, h, -⟩ := returns_of_check (cfg := demoCfg) (dist := demoDist) (fuel := 3)
    (p := fun s => s.bins.lb.length == 4) (by decide +kernel)
  refine ⟨_, _, h, ?_⟩
  rw [C01_stops_at_total_time h]
  norm_num [demoCfg]

/-! ### C03 -/

/-- In every record the Lorentz factors are positive and strictly increasing. -/
theorem C03_gamma_sorted_positive {cfg : Cfg K} (wf : cfg.WF) {dist d : Dist K}
    (hnn : ∀ x, 0 ≤ dist.eval x) {r : Result K} (h : Observed cfg dist r d) :
    r.gamma.Pairwise (· < ·) ∧ ∀ x ∈ r.gamma, 0 < x := by
  obtain ⟨s, hr, -, -, e, -⟩ := observed_reach h
  have := (reach_inv wf hnn hr).1
  rw [e]
  exact ⟨this.sorted, this.pos⟩

example : ∃ r d, Observed demoCfg demoDist r d ∧ r.gamma = [847/512, 87/32, 600080000/100020001, 80000/10001] := by
  obtain ⟨s, h, e⟩ := returns_of_check (cfg := demoCfg) (dist := demoDist) (fuel := 3)
    (p := fun s => s.bins.lb == [847/512, 87/32, 600080000/100020001, 80000/10001]) (by decide +kernel)
  exact ⟨_, _, Or.inl h, by simpa [resultOf] using e⟩

/-! ### C04 -/

/-- With `gamma_bounds=(lo, hi)` every reported Lorentz factor is within the bounds. -/
theorem C04_gamma_in_bounds {cfg : Cfg K} (wf : cfg.WF) {dist d : Dist K}
    (hnn : ∀ x, 0 ≤ dist.eval x) {lo hi : K} (hb : cfg.gammaBounds = some (lo, hi)) {r : Result K}
    (h : Observed cfg dist r d) : ∀ x ∈ r.gamma, lo ≤ x ∧ x ≤ hi := by
  obtain ⟨s, hr, -, -, e, -⟩ := observed_reach h
  have := (reach_inv wf hnn hr).1
  rw [e]
  exact this.bounds lo hi hb

/-- a run in which a bin left through the lower bound and another one was added at the upper bound -/
example : ∃ r d, Observed demoCfg demoDist r d ∧ demoCfg.gammaBounds = some (1, 8) ∧
    r.gamma.length = 4 ∧ ∀ x ∈ r.gamma, 1 ≤ x ∧ x ≤ 8 := by
  obtain ⟨s, h, e⟩ := returns_of_check (cfg := demoCfg) (dist := demoDist) (fuel := 3)
    (p := fun s => s.bins.lb.length == 4) (by decide +kernel)
  exact ⟨_, _, Or.inl h, rfl, by simpa [resultOf] using e,
    C04_gamma_in_bounds demoCfg_wf demoDist_nonneg rfl (Or.inl h)⟩

/-! ### C05 -/

/-- Reported densities are never negative, and the distribution left in the blob is never negative
anywhere. -/
theorem C05_density_nonneg {cfg : Cfg K} (wf : cfg.WF) {dist d : Dist K}
    (hnn : ∀ x, 0 ≤ dist.eval x) {r : Result K} (h : Observed cfg dist r d) :
    (∀ x ∈ r.density, 0 ≤ x) ∧ ∀ x, 0 ≤ d.eval x := by
  obtain ⟨s, hr, ed, -, -, e, -⟩ := observed_reach h
  have := (reach_inv wf hnn hr).1
  rw [e, ed]
  exact ⟨this.densnn, this.distnn⟩

example : ∃ r d, Observed demoAuto demoDist r d ∧ (∃ x ∈ r.density, 0 < x) ∧ ∀ x ∈ r.density, 0 ≤ x := by
  obtain ⟨s, h, e⟩ := returns_of_check (cfg := demoAuto) (dist := demoDist) (fuel := 15)
    (p := fun s => s.dens.any (0 < ·)) (by decide +kernel)
  refine ⟨_, _, Or.inl h, ?_, (C05_density_nonneg demoAuto_wf demoDist_nonneg (Or.inl h)).1⟩
  simpa [resultOf, List.any_eq_true] using e

/-! ### C06 -/

/-- In every record each column of the subgroup fractions is non-negative and sums to one. -/
theorem C06_fractions_partition {cfg : Cfg K} (wf : cfg.WF) (hf : cfg.FractionsOK) {dist d : Dist K}
    (hnn : ∀ x, 0 ≤ dist.eval x) {r : Result K} (h : Observed cfg dist r d) :
    (∀ row ∈ r.subgroups, ∀ x ∈ row, 0 ≤ x) ∧
      ∀ j, j < r.gamma.length → (r.subgroups.map (·.getD j 0)).sum = 1 := by
  obtain ⟨s, hr, -, -, e, -, e2, -⟩ := observed_reach h
  have := (reach_inv wf hnn hr).2 hf
  rw [e, e2]
  exact ⟨this.nn, this.sum⟩

/-- two subgroups with mixed bins -/
example : ∃ r d, Observed demoCfg demoDist r d ∧ r.subgroups.length = 2 ∧
    (∃ row ∈ r.subgroups, ∃ x ∈ row, 0 < x ∧ x < 1) ∧
    ∀ j, j < r.gamma.length → (r.subgroups.map (·.getD j 0)).sum = 1 := by
  obtain ⟨s, h, e⟩ := returns_of_check (cfg := demoCfg) (dist := demoDist) (fuel := 3)
    (p := fun s => s.sub.length == 2 && s.sub.any fun row => row.any fun x => decide (0 < x ∧ x < 1))
    (by decide +kernel)
  simp only [Bool.and_eq_true, beq_iff_eq, List.any_eq_true, decide_eq_true_eq] at e
  exact ⟨_, _, Or.inl h, e.1, e.2,
    (C06_fractions_partition demoCfg_wf demoCfg_fractions demoDist_nonneg (Or.inl h)).2⟩

/-! ### C07 -/

/-- In every record all per-bin arrays have the same length. -/
theorem C07_aligned {cfg : Cfg K} (wf : cfg.WF) {dist d : Dist K}
    (hnn : ∀ x, 0 ≤ dist.eval x) {r : Result K} (h : Observed cfg dist r d) :
    r.density.length = r.gamma.length ∧ r.subgroups ≠ [] ∧
    (∀ row ∈ r.subgroups, row.length = r.gamma.length) ∧
    (∀ p ∈ r.enChgRates, p.2.length = r.gamma.length) ∧
    (∀ p ∈ r.relInjRates, p.2.length = r.gamma.length) ∧
    (∀ p ∈ r.absInjRates, p.2.length = r.gamma.length) := by
  obtain ⟨s, hr, -, -, e1, e2, e3, e4, e5⟩ := observed_reach h
  have I := (reach_inv wf hnn hr).1
  rw [e1, e2, e3, e4]
  refine ⟨I.denslen, I.subne, I.sublen, ?_, ?_, ?_⟩
  · intro p hp
    obtain ⟨q, hq, rfl⟩ := List.mem_map.1 hp
    exact (I.en.len q hq).1
  · rcases e5 with ⟨a, b⟩ | ⟨a, b⟩
    · rw [a]; exact I.rel.len
    · rw [a]; exact I.abs.len
  · rcases e5 with ⟨a, b⟩ | ⟨a, b⟩
    · rw [b]; exact I.abs.len
    · rw [b]; exact I.rel.len

example : ∃ r d, Observed demoAuto demoDist r d ∧ r.gamma.length = 7 ∧ r.density.length = 7 ∧
    r.absInjRates.length = 1 := by
  obtain ⟨s, h, e⟩ := returns_of_check (cfg := demoAuto) (dist := demoDist) (fuel := 15)
    (p := fun s => s.bins.lb.length == 7 && s.abs.length == 1) (by decide +kernel)
  simp only [Bool.and_eq_true, beq_iff_eq] at e
  refine ⟨_, _, Or.inl h, e.1, ?_, e.2⟩
  rw [(C07_aligned demoAuto_wf demoDist_nonneg (Or.inl h)).1]
  exact e.1

/-! ### C08 -/

/-- `rates` lists, function by function and in the order of `fns`, a row of numbers (never NaN) each of
which was returned by that function. -/
def ReportedRates (fns : List (String × GammaFn K)) (n : Nat) (rates : Rates1 K) : Prop :=
  List.Forall₂ (fun f p => p.1 = f.1 ∧ p.2.length = n ∧
    ∀ x ∈ p.2, ∃ y, x = some y ∧ ∃ d params, y ∈ f.2 d params) fns rates

omit [Field K] [LinearOrder K] [IsStrictOrderedRing K] in
theorem RatesGood1.reported {fns : List (String × GammaFn K)} {n : Nat} {r : Rates1 K}
    (h : RatesGood1 fns n r) : ReportedRates fns n r := by
  refine List.Forall₂.imp ?_ h
  rintro f p ⟨h1, h2, h3⟩
  exact ⟨h1, h2, h3⟩

/-- Fixed, automatic and optimised steps alike: the returned record has one row per function, in order,
without NaN, made of values returned by that function.  The callback's record too, up to the exchange
of the two injection fields (C13). -/
theorem C08_no_nan {cfg : Cfg K} (wf : cfg.WF) {dist d : Dist K}
    (hnn : ∀ x, 0 ≤ dist.eval x) {r : Result K} :
    (Returns cfg dist r d → ReportedRates cfg.enFns r.gamma.length r.enChgRates ∧
      ReportedRates cfg.relFns r.gamma.length r.relInjRates ∧
      ReportedRates cfg.absFns r.gamma.length r.absInjRates) ∧
    (CallsBack cfg dist r d → ReportedRates cfg.enFns r.gamma.length r.enChgRates ∧
      ReportedRates cfg.relFns r.gamma.length r.absInjRates ∧
      ReportedRates cfg.absFns r.gamma.length r.relInjRates) := by
  have key : ∀ {s : State K}, Reach cfg dist s →
      ReportedRates cfg.enFns s.bins.lb.length (energyChangesLb s.en) ∧
      ReportedRates cfg.relFns s.bins.lb.length s.rel ∧
      ReportedRates cfg.absFns s.bins.lb.length s.abs := by
    intro s hr
    have I := (reach_inv wf hnn hr).1
    refine ⟨?_, I.rel.reported, I.abs.reported⟩
    refine forall₂_map_right I.en ?_
    rintro f p ⟨h1, ⟨h2, h3⟩, -⟩
    exact ⟨h1, h2, h3⟩
  constructor
  · intro h
    obtain ⟨s, hr, -, rfl, rfl⟩ := returns_reach h
    exact key hr
  · rintro ⟨s, s', hr, hg, hs, rfl, rfl⟩
    exact key (.step hr hg hs)

/-- the returned rates are those of the functions applied to the returned arrays and to the distribution
left in the blob; an energy-change function receives both edges of every bin, `γ_j` at position
`2j` and `1.0001 γ_j` at position `2j+1`, and its values at the even positions are reported -/
structure FreshRecord (cfg : Cfg K) (d : Dist K) (r : Result K) : Prop where
  rel : r.relInjRates =
    cfg.relFns.map fun f => (f.1, (f.2 d ⟨r.gamma, r.density, r.subgroups⟩).map some)
  abs : r.absInjRates =
    cfg.absFns.map fun f => (f.1, (f.2 d ⟨r.gamma, r.density, r.subgroups⟩).map some)
  en : ∃ edges : List K, edges.length = 2 * r.gamma.length ∧
    (∀ j, j < r.gamma.length → edges.getD (2 * j) 0 = r.gamma.getD j 0 ∧
      edges.getD (2 * j + 1) 0 = r.gamma.getD j 0 * (1 + 1 / 10000)) ∧
    List.Forall₂ (fun f p => p.1 = f.1 ∧ p.2.length = r.gamma.length ∧
      (f.2 d ⟨edges, r.density, r.subgroups⟩).length = 2 * r.gamma.length ∧
      ∀ j, j < r.gamma.length →
        p.2.getD j none = some ((f.2 d ⟨edges, r.density, r.subgroups⟩).getD (2 * j) 0))
      cfg.enFns r.enChgRates

theorem Fresh.record {cfg : Cfg K} {s : State K} (I : Inv cfg s) (F : Fresh cfg s) :
    FreshRecord cfg s.dist (resultOf s) := by
  have hb : s.bins.Len s.bins.lb.length := ⟨rfl, I.ublen⟩
  refine ⟨(newRates1_eq rfl I.denslen I.subne I.sublen F.rel).1,
    (newRates1_eq rfl I.denslen I.subne I.sublen F.abs).1,
    interlace s.bins, interlace_length hb, ?_, ?_⟩
  · intro j hj
    obtain ⟨a, b⟩ := interlace_getD hb j hj
    refine ⟨a, ?_⟩
    rw [b, F.ub, getD_map' (a := s.bins.lb) _ 0 0 hj]
    rfl
  · obtain ⟨e, hl⟩ := newRates2_eq hb I.denslen I.subne I.sublen F.en
    show List.Forall₂ _ cfg.enFns (energyChangesLb s.en)
    rw [e]
    unfold energyChangesLb
    rw [List.map_map, List.forall₂_map_right_iff, List.forall₂_same]
    intro f hf
    have hfl := hl f hf
    have hdl := (deinterlace_length hfl).1
    refine ⟨rfl, by simpa [resultOf] using hdl, hfl, ?_⟩
    intro j hj
    simp only [Function.comp]
    rw [getD_map' _ 0 none (by rw [hdl]; exact hj), (deinterlace_getD _ j _ hfl hj).1]
    rfl

/-- Without optimisation (fixed steps, or automatic steps recalculating everything) every returned rate
is fresh. -/
theorem C08_fresh_rates {cfg : Cfg K} (wf : cfg.WF) (hopt : cfg.optimize = false) {dist d : Dist K}
    (hnn : ∀ x, 0 ≤ dist.eval x) {r : Result K} (h : Returns cfg dist r d) : FreshRecord cfg d r := by
  obtain ⟨s, hr, -, rfl, rfl⟩ := returns_reach h
  exact (reach_fresh wf hopt hnn hr).record (reach_inv wf hnn hr).1

example : ∃ r d, Returns demoCfg demoDist r d ∧ FreshRecord demoCfg d r ∧
    r.enChgRates.map Prod.fst = ["cool"] ∧ r.gamma.length = 4 := by
  obtain ⟨s, h, e⟩ := returns_of_check (cfg := demoCfg) (dist := demoDist) (fuel := 3)
    (p := fun s => (energyChangesLb s.en).map Prod.fst == ["cool"] && s.bins.lb.length == 4)
    (by decide +kernel)
  simp only [Bool.and_eq_true, beq_iff_eq] at e
  exact ⟨_, _, h, C08_fresh_rates demoCfg_wf rfl demoDist_nonneg h, e.1, e.2⟩

/-! ### C20 -/

/-- Wherever the reported density is positive, the blob's distribution evaluated at the reported Lorentz
factor gives exactly that density. -/
theorem C20_blob_agrees {cfg : Cfg K} (wf : cfg.WF) {dist d : Dist K}
    (hnn : ∀ x, 0 ≤ dist.eval x) {r : Result K} (h : Observed cfg dist r d) :
    ∀ j, j < r.gamma.length → 0 < r.density.getD j 0 → d.eval (r.gamma.getD j 0) = r.density.getD j 0 := by
  obtain ⟨s, hr, ed, -, e1, e2, -⟩ := observed_reach h
  have I := (reach_inv wf hnn hr).1
  rw [e1, e2, ed]
  intro j hj hp
  rcases I.agree j hj with h0 | h0
  · rw [h0] at hp; exact absurd hp (lt_irrefl _)
  · exact h0.symm

example : ∃ r d, Observed demoCfg demoDist r d ∧ r.gamma = [847/512, 87/32, 600080000/100020001, 80000/10001] ∧
    d.eval (87/32) = 1654445554329/297124571600 := by
  obtain ⟨s, h, e⟩ := returns_of_check (cfg := demoCfg) (dist := demoDist) (fuel := 3)
    (p := fun s => s.bins.lb == [847/512, 87/32, 600080000/100020001, 80000/10001] &&
      s.dens.getD 1 0 == 1654445554329/297124571600) (by decide +kernel)
  simp only [Bool.and_eq_true, beq_iff_eq] at e
  refine ⟨_, _, Or.inl h, e.1, ?_⟩
  have := C20_blob_agrees demoCfg_wf demoDist_nonneg (Or.inl h) 1 (by simp [resultOf, e.1])
    (by simp only [resultOf]; rw [e.2]; norm_num)
  simp only [resultOf] at this
  rw [e.2, e.1] at this
  exact this

end Verif.TE
