import Verif.Lemmas.Units
import Verif.Lemmas.Demo
import Verif.Props.TETwoHalves

/-
C84: scales of time, energy and density.  What `evaluate()` does depends on them only through the numbers the
user gives: two descriptions of one problem in different units lead to the same exception, or to the same
number of steps and the same records up to the units.
-/

namespace Verif.TE

open Verif.Np

variable {K : Type} [Field K] [LinearOrder K] [IsStrictOrderedRing K]

/-- a record in new units -/
def Result.mul (u : Units K) (r : Result K) : Result K :=
  ⟨u.t * r.totalTime, r.gamma, mulL u.n r.density, r.subgroups, mulR1 (u.e / u.t) r.enChgRates,
    mulR1 (1 / u.t) r.relInjRates, mulR1 (u.n / u.t) r.absInjRates⟩

/-- a record in new units, when the two kinds of injection rates have changed places (the callback's record,
see C13) -/
def Result.mulSwapped (u : Units K) (r : Result K) : Result K :=
  ⟨u.t * r.totalTime, r.gamma, mulL u.n r.density, r.subgroups, mulR1 (u.e / u.t) r.enChgRates,
    mulR1 (u.n / u.t) r.relInjRates, mulR1 (1 / u.t) r.absInjRates⟩

variable {u : Units K} {cfg cfg' : Cfg K}

theorem energyChangesLb_mul (c : K) (r : Rates2 K) : energyChangesLb (mulR2 c r) = mulR1 c (energyChangesLb r) := by
  simp only [energyChangesLb, mulR2, mulR1, List.map_map]
  rfl

theorem resultOf_mul (s : State K) : resultOf (s.mul u) = (resultOf s).mul u := by
  simp only [resultOf, State.mul, Result.mul, energyChangesLb_mul]

theorem callbackOf_mul (s : State K) : callbackOf (s.mul u) = (callbackOf s).mulSwapped u := by
  simp only [callbackOf, State.mul, Result.mulSwapped, energyChangesLb_mul]

/-- C84: for two configurations describing one problem in different units, what comes out of `evaluate()` is the
same: the same exception, the same number of steps, the same record up to the units -/
theorem C84_units (h : Rescaled u cfg cfg') (hh : cfg.num.Homogeneous u.n) (dist : Dist K) (fuel : Nat) :
    outcome cfg' (dist.mul u.n) fuel
      = (outcome cfg dist fuel).map (Option.map fun p => (p.1.mul u, p.2.mul u.n)) := by
  unfold outcome
  rw [evaluate_mul h hh]
  cases evaluate cfg dist fuel with
  | error e => rfl
  | ok o =>
    cases o with
    | none => rfl
    | some s =>
      show Except.ok (some (resultOf (s.mul u), _)) = Except.ok (some ((resultOf s).mul u, _))
      rw [resultOf_mul]
      rfl

theorem reach_mul (h : Rescaled u cfg cfg') (hh : cfg.num.Homogeneous u.n) {dist : Dist K} {s' : State K}
    (hr : Reach cfg' (dist.mul u.n) s') : ∃ s, s' = s.mul u ∧ Reach cfg dist s := by
  have back : ∀ {α : Type} {f : α → α} {x x' : Except Err α} {a' : α}, x' = x.map f → x' = .ok a' →
      ∃ a, x = .ok a ∧ f a = a' := by
    intro α f x x' a' h1 h2
    rw [h1] at h2
    cases x with
    | error e => exact absurd h2 (by simp [Except.map])
    | ok a => exact ⟨a, rfl, Except.ok.inj h2⟩
  induction hr with
  | init hi =>
    obtain ⟨s, hs, rfl⟩ := back (initState_mul h dist) hi
    exact ⟨s, rfl, .init hs⟩
  | step _ hlt hst ih =>
    obtain ⟨s, rfl, hrs⟩ := ih
    obtain ⟨s2, hs2, rfl⟩ := back (step_mul h hh s) hst
    refine ⟨s2, rfl, .step hrs ?_ hs2⟩
    rw [h.totalTime] at hlt
    exact (mul_lt_mul_iff_right₀ u.ht).1 hlt

/-- C84, callbacks: the callbacks of the run in new units are those of the run in old units, converted -/
theorem C84_callbacks (h : Rescaled u cfg cfg') (hh : cfg.num.Homogeneous u.n) (dist : Dist K) (r' : Result K)
    (d' : Dist K) :
    CallsBack cfg' (dist.mul u.n) r' d'
      ↔ ∃ r d, CallsBack cfg dist r d ∧ r' = r.mulSwapped u ∧ d' = d.mul u.n := by
  have hlt : ∀ s : State K, (s.mul u).elapsed < cfg'.totalTime ↔ s.elapsed < cfg.totalTime := by
    intro s
    rw [h.totalTime]
    exact mul_lt_mul_iff_right₀ u.ht
  constructor
  · rintro ⟨s1, s2, hr, hl, hst, rfl, rfl⟩
    obtain ⟨s, rfl, hrs⟩ := reach_mul h hh hr
    rw [step_mul h hh] at hst
    cases hx : step cfg s with
    | error e => rw [hx] at hst; exact absurd hst (by simp [Except.map])
    | ok t =>
      rw [hx] at hst
      cases hst
      exact ⟨_, _, ⟨s, t, hrs, (hlt s).1 hl, hx, rfl, rfl⟩, callbackOf_mul t, rfl⟩
  · rintro ⟨r, d, ⟨s, t, hr, hl, hst, rfl, rfl⟩, rfl, rfl⟩
    have fwd : ∀ s, Reach cfg dist s → Reach cfg' (dist.mul u.n) (s.mul u) := by
      intro s hs
      induction hs with
      | init hi => exact .init (by rw [initState_mul h, hi]; rfl)
      | step _ hl hs ih => exact .step ih ((hlt _).2 hl) (by rw [step_mul h hh, hs]; rfl)
    exact ⟨s.mul u, t.mul u, fwd s hr, (hlt s).2 hl, by rw [step_mul h hh, hst]; rfl, (callbackOf_mul t).symm, rfl⟩

/-! ### consequences for one and the same system of units -/

/-- `c` times faster rates -/
def faster (c : K) (fns : List (String × GammaFn K)) : List (String × GammaFn K) :=
  fns.map fun f => (f.1, fun d p => (f.2 d p).map (c * ·))

theorem dist_mul_one (d : Dist K) : d.mul 1 = d := by simp [Dist.mul]

theorem params_mul_one (p : FnParams K) : p.mul 1 = p := by simp [FnParams.mul, mulL]

theorem homogeneous_one (num : Numerics K) : num.Homogeneous 1 := by
  intro xs ys
  have e1 : mulL 1 ys = ys := by simp [mulL]
  rw [e1]
  cases num.interp xs ys <;> simp

theorem sameFn_faster {c d : K} (h : d = c) (fns : List (String × GammaFn K)) :
    List.Forall₂ (SameFn 1 d) fns (faster c fns) := by
  subst h
  unfold faster
  induction fns with
  | nil => exact .nil
  | cons f fns ih =>
    refine .cons ⟨rfl, fun d p => ?_⟩ ih
    rw [dist_mul_one, params_mul_one]
    rfl

/-- the problem with all processes `c` times faster, the total time and a fixed step `c` times shorter -/
def Cfg.faster (c : K) (cfg : Cfg K) : Cfg K :=
  { cfg with
    totalTime := cfg.totalTime / c
    stepDuration := match cfg.stepDuration with
      | .fixed dt => .fixed (dt / c)
      | .auto => .auto
    enFns := TE.faster c cfg.enFns
    relFns := TE.faster c cfg.relFns
    absFns := TE.faster c cfg.absFns }

/-- the record of the faster problem -/
def Result.faster (c : K) (r : Result K) : Result K :=
  ⟨r.totalTime / c, r.gamma, r.density, r.subgroups, r.enChgRates.map fun p => (p.1, p.2.map (Option.map (c * ·))),
    r.relInjRates.map fun p => (p.1, p.2.map (Option.map (c * ·))),
    r.absInjRates.map fun p => (p.1, p.2.map (Option.map (c * ·)))⟩

/-- C84, tempo: only rate times time counts.  With every rate `c` times larger and total time and fixed step `c`
times shorter, `evaluate()` gives the same Lorentz factors, densities, fractions and distribution, or the same
exception, whatever the rate functions, subgroups, bounds and options -/
theorem C84_tempo (cfg : Cfg K) {c : K} (hc : 0 < c) (dist : Dist K) (fuel : Nat) :
    outcome (cfg.faster c) dist fuel = (outcome cfg dist fuel).map (Option.map fun p => (p.1.faster c, p.2)) := by
  let u : Units K := ⟨1 / c, 1, 1, one_div_pos.2 hc, one_pos, one_pos⟩
  have hcu : (1 : K) / (1 / c) = c := one_div_one_div c
  have h : Rescaled u cfg (cfg.faster c) :=
    { num := rfl
      mec2 := (one_mul _).symm
      totalTime := by simp only [Cfg.faster, u]; rw [div_eq_mul_one_div, mul_comm]
      stepDuration := by
        simp only [Cfg.faster, u]
        cases cfg.stepDuration with
        | fixed dt => simp only [StepMode.mul]; rw [div_eq_mul_one_div, mul_comm]
        | auto => rfl
      enFns := sameFn_faster hcu _
      relFns := sameFn_faster hcu _
      absFns := sameFn_faster hcu _
      initialGamma := rfl
      gammaBounds := rfl
      maxBinCreep := rfl
      mergeCloser := rfl
      maxEnergyChange := rfl
      maxDensityChange := rfl
      maxInjection := (one_mul _).symm
      optimize := rfl
      heun := rfl
      subgroups := rfl
      initialFractions := rfl }
  have := C84_units h (homogeneous_one _) dist fuel
  rw [show (u.n : K) = 1 from rfl, dist_mul_one] at this
  rw [this]
  congr 2
  funext p
  rw [dist_mul_one]
  have e1 : ∀ x : K, u.t * x = x / c := fun x => by simp only [u]; rw [div_eq_mul_one_div x, mul_comm]
  simp only [Result.mul, Result.faster, e1, mulR1, mulV, u, hcu]
  simp [mulL]

/-- rate functions of the Lorentz factor only (the rates may read neither the densities nor the blob) -/
def OfGamma (fns : List (String × GammaFn K)) : Prop :=
  ∀ f ∈ fns, ∃ ρ : K → K, ∀ d p, f.2 d p = p.gamma.map ρ

/-- C84, amount: with rates depending only on the Lorentz factor the problem is linear in the amount of particles:
with `a` times the initial density, `a` times the injected density and `a` times the permitted injection per step,
`evaluate()` gives the same Lorentz factors and fractions and `a` times the densities, or the same exception -/
theorem C84_amount (cfg : Cfg K) {a : K} (ha : 0 < a) (hen : OfGamma cfg.enFns) (hrel : OfGamma cfg.relFns)
    (habs : OfGamma cfg.absFns) (hh : cfg.num.Homogeneous a) (dist : Dist K) (fuel : Nat) :
    outcome { cfg with absFns := faster a cfg.absFns, maxInjection := a * cfg.maxInjection }
        ⟨fun g => a * dist.eval g, dist.gammaMin, dist.gammaMax⟩ fuel
      = (outcome cfg dist fuel).map (Option.map fun p =>
          ({ p.1 with
              density := p.1.density.map (a * ·)
              absInjRates := p.1.absInjRates.map fun q => (q.1, q.2.map (Option.map (a * ·))) },
            ⟨fun g => a * p.2.eval g, p.2.gammaMin, p.2.gammaMax⟩)) := by
  let u : Units K := ⟨1, 1, a, one_pos, one_pos, ha⟩
  have h1 : ∀ fns : List (String × GammaFn K), OfGamma fns → List.Forall₂ (SameFn a (1 / 1)) fns fns := by
    intro fns hf
    refine List.forall₂_same.2 fun f hm => ⟨rfl, fun d p => ?_⟩
    obtain ⟨ρ, hρ⟩ := hf f hm
    rw [hρ, hρ]
    simp [FnParams.mul, mulL]
  have h2 : ∀ fns : List (String × GammaFn K), OfGamma fns → List.Forall₂ (SameFn a (a / 1)) fns (faster a fns) := by
    intro fns hf
    unfold faster
    refine List.forall₂_map_right_iff.2 (List.forall₂_same.2 fun f hm => ⟨rfl, fun d p => ?_⟩)
    obtain ⟨ρ, hρ⟩ := hf f hm
    simp only [hρ, FnParams.mul, mulL, div_one]
  have h : Rescaled u cfg { cfg with absFns := faster a cfg.absFns, maxInjection := a * cfg.maxInjection } :=
    { num := rfl
      mec2 := (one_mul _).symm
      totalTime := (one_mul _).symm
      stepDuration := by
        show cfg.stepDuration = StepMode.mul 1 cfg.stepDuration
        cases cfg.stepDuration with
        | fixed dt => simp [StepMode.mul]
        | auto => rfl
      enFns := h1 _ hen
      relFns := h1 _ hrel
      absFns := h2 _ habs
      initialGamma := rfl
      gammaBounds := rfl
      maxBinCreep := rfl
      mergeCloser := rfl
      maxEnergyChange := rfl
      maxDensityChange := rfl
      maxInjection := rfl
      optimize := rfl
      heun := rfl
      subgroups := rfl
      initialFractions := rfl }
  have := C84_units h hh dist fuel
  refine this.trans ?_
  congr 2
  funext p
  have e1 : ∀ r : Rates1 K, mulR1 1 r = r := by
    intro r
    simp [mulR1, mulV]
  simp only [Result.mul, Dist.mul, u, one_mul, div_one, e1]
  rfl

/-! ### non-vacuity -/

theorem toyNumerics_homogeneous {a : K} (ha : 0 < a) : (toyNumerics : Numerics K).Homogeneous a := by
  intro xs ys
  have hf : ∀ (x : K) (l : List (K × K)) (acc : K), (l.map fun p => (p.1, a * p.2)).foldl (prevStep x) (a * acc)
      = a * l.foldl (prevStep x) acc := by
    intro x l
    induction l with
    | nil => intro acc; rfl
    | cons p l ih =>
      intro acc
      simp only [List.map_cons, List.foldl_cons]
      have : prevStep x (a * acc) (p.1, a * p.2) = a * prevStep x acc p := by
        simp only [prevStep, abs_mul, abs_of_pos ha]
        split <;> rfl
      rw [this, ih]
  simp only [toyNumerics, mkNumerics, prevInterp]
  split
  · simp only [Option.map_some, Option.some.injEq]
    funext x
    have hz : List.zip xs (mulL a ys) = (List.zip xs ys).map fun p => (p.1, a * p.2) := by
      have := zip_map_both (id : K → K) (a * ·) xs ys
      rwa [List.map_id] at this
    rw [hz]
    have := hf x (List.zip xs ys) 0
    rwa [mul_zero] at this
  · rfl

/-- the demo run with two subgroups, bounds, automatic and optimised steps meets the hypotheses of `C84_amount`,
and both sides are finished runs with particles in them -/
example : OfGamma demoAuto.enFns ∧ OfGamma demoAuto.relFns ∧ OfGamma demoAuto.absFns ∧
    demoAuto.num.Homogeneous 3 ∧ checkRun demoAuto demoDist 20 (fun s => decide (0 < s.dens.sum)) = true := by
  refine ⟨?_, ?_, ?_, toyNumerics_homogeneous (by norm_num), by decide +kernel⟩
  · intro f hf
    simp only [demoAuto, demoCfg, List.mem_singleton] at hf
    subst hf
    exact ⟨_, fun d p => rfl⟩
  · intro f hf
    simp only [demoAuto, demoCfg, List.mem_singleton] at hf
    subst hf
    exact ⟨_, fun d p => rfl⟩
  · intro f hf
    simp only [demoAuto, demoCfg, List.mem_singleton] at hf
    subst hf
    exact ⟨_, fun d p => rfl⟩

end Verif.TE
