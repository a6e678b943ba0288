import Verif.Props.Fit
import Verif.Props.FitSession
import Verif.Props.Superposition

/-
C95 the limits of the spectrum in the fit models.  The wrappers integrate over fixed arrays of Lorentz factors (10 to 1e9), so
the model is a step function of `log10_gamma_min` and `log10_gamma_max`: constant while no point of the array is passed,
with a jump where one is.
-/

namespace Verif.Fit

open MathUtils Spectra Region Compton Targets Classical

variable {k : Consts} {distance : ℝ → ℝ}

/-- the distribution with other limits -/
def otherLimits (a b : ℝ) : Dist → Dist
  | .powerLaw k p _ _ => .powerLaw k p a b
  | .broken k p1 p2 gb _ _ => .broken k p1 p2 gb a b
  | .logParabola k p q g0 _ _ => .logParabola k p q g0 a b
  | .ecpl k p gc _ _ => .ecpl k p gc a b
  | .ecbpl k p1 p2 gc gb _ _ => .ecbpl k p1 p2 gc gb a b
  | .interp f df norm _ _ => .interp f df norm a b
  | .empty _ _ => .empty a b

theorem otherLimits_gmin (a b : ℝ) (d : Dist) : (otherLimits a b d).gmin = a := by cases d <;> rfl

theorem otherLimits_gmax (a b : ℝ) (d : Dist) : (otherLimits a b d).gmax = b := by cases d <;> rfl

/-- the limits matter for the density only through the question whether the Lorentz factor is between them -/
theorem otherLimits_call {a b a' b' g : ℝ} (d : Dist) (h : InBounds a b g ↔ InBounds a' b' g) :
    (otherLimits a b d).call g = (otherLimits a' b' d).call g := by
  cases d <;>
    simp only [otherLimits, Dist.call, powerLawAt, brokenAt, logParabolaAt, ecplAt, ecbplAt, interpAt, h]

theorem otherLimits_ssa {a b a' b' g : ℝ} (d : Dist) (h : InBounds a b g ↔ InBounds a' b' g) :
    (otherLimits a b d).ssa g = (otherLimits a' b' d).ssa g := by
  cases d <;>
    simp only [otherLimits, Dist.ssa, Dist.ssaElem, powerLawSSA, brokenSSA, logParabolaSSA, ecplSSA, ecbplSSA, interpSSA,
      logParabolaAt, ecplAt, ecbplAt, interpAt, h]

/-- the two spectra look the same on the array -/
structure Alike (d d' : Dist) (gamma : List ℝ) : Prop where
  quiet : NoCorrection d.gmin d.gmax gamma
  quiet' : NoCorrection d'.gmin d'.gmax gamma
  call : ∀ g ∈ gamma, d.call g = d'.call g
  ssa : ∀ g ∈ gamma, d.ssa g = d'.ssa g

theorem alike_limits {a b a' b' : ℝ} (d : Dist) {gamma : List ℝ} (q : NoCorrection a b gamma) (q' : NoCorrection a' b' gamma)
    (h : ∀ g ∈ gamma, InBounds a b g ↔ InBounds a' b' g) : Alike (otherLimits a b d) (otherLimits a' b' d) gamma where
  quiet := by rw [otherLimits_gmin, otherLimits_gmax]; exact q
  quiet' := by rw [otherLimits_gmin, otherLimits_gmax]; exact q'
  call g hg := otherLimits_call d (h g hg)
  ssa g hg := otherLimits_ssa d (h g hg)

theorem quiet_afterCall {d : Dist} {gamma : List ℝ} (h : NoCorrection d.gmin d.gmax gamma) : d.afterCall gamma = gamma :=
  (C29_unchanged_partial d h).1

theorem quiet_afterSSA {d : Dist} {gamma : List ℝ} (h : NoCorrection d.gmin d.gmax gamma) : d.afterSSA gamma = gamma :=
  (C29_unchanged_partial d h).2

theorem zipWith_self (f : ℝ → ℝ → ℝ) (l : List ℝ) : List.zipWith f l l = l.map fun x => f x x := by
  induction l with
  | nil => rfl
  | cons x l ih => simp

theorem Alike.tau {d d' : Dist} {gamma : List ℝ} (h : Alike d d' gamma) (nu z δ B R_b : ℝ) :
    Synchrotron.tauSSA k trapz nu z δ B R_b d gamma = Synchrotron.tauSSA k trapz nu z δ B R_b d' gamma := by
  have e : ∀ {d : Dist}, NoCorrection d.gmin d.gmax gamma → d.ssaIntegrand gamma = (gamma, gamma.map d.ssa) := by
    intro d q
    unfold Dist.ssaIntegrand
    rw [quiet_afterSSA q, zipWith_self]
    rfl
  unfold Synchrotron.tauSSA
  rw [e h.quiet, e h.quiet', List.map_congr_left h.ssa]

/-- spectra that look the same on the array have the same synchrotron SED -/
theorem Alike.synchrotron {d d' : Dist} {gamma : List ℝ} (h : Alike d d' gamma) (ssa : Bool) (nu z d_L δ B R_b : ℝ) :
    Synchrotron.sedFlux k trapz ssa nu z d_L δ B R_b d gamma = Synchrotron.sedFlux k trapz ssa nu z d_L δ B R_b d' gamma := by
  unfold Synchrotron.sedFlux
  dsimp only
  rw [Synchrotron.sedThin_eq, Synchrotron.sedThin_eq, quiet_afterCall h.quiet, quiet_afterCall h.quiet',
    h.tau, over_congr fun g hg => by rw [h.call g hg]]

/-- ... the same SSC SED -/
theorem Alike.ssc {d d' : Dist} {gamma : List ℝ} (h : Alike d d' gamma) (ssa : Bool) (nu z d_L δ B R_b : ℝ) :
    Compton.sscSed k trapz ssa nu z d_L δ B R_b d gamma = Compton.sscSed k trapz ssa nu z d_L δ B R_b d' gamma := by
  unfold Compton.sscSed
  dsimp only
  simp only [quiet_afterCall h.quiet, quiet_afterCall h.quiet', quiet_afterSSA h.quiet, quiet_afterSSA h.quiet', ite_self]
  have e : ∀ nu' : ℝ, (over trapz gamma fun g =>
      uPhSynchDiff k R_b d_L δ (nuToEps k nu' z δ) (Synchrotron.sedFlux k trapz ssa nu' z d_L δ B R_b d gamma)
        / nuToEps k nu' z δ ^ 2 * (Synchrotron.volume R_b * d.call g) / g ^ 2
        * Kernels.isotropicKernel g (nuToEps k nu' z δ) (nuToEps k nu z δ))
      = over trapz gamma fun g =>
      uPhSynchDiff k R_b d_L δ (nuToEps k nu' z δ) (Synchrotron.sedFlux k trapz ssa nu' z d_L δ B R_b d' gamma)
        / nuToEps k nu' z δ ^ 2 * (Synchrotron.volume R_b * d'.call g) / g ^ 2
        * Kernels.isotropicKernel g (nuToEps k nu' z δ) (nuToEps k nu z δ) :=
    fun nu' => over_congr fun g hg => by rw [h.synchrotron, h.call g hg]
  simp only [e]

/-- ... and the same densities in the external Compton integrals, if they do so on the array divided by `delta_D` -/
theorem Alike.boosted {d d' : Dist} {gamma : List ℝ} {δ : ℝ} (h : Alike d d' (gamma.map (· / δ))) (R_b : ℝ) :
    Compton.boostedN d R_b δ gamma = Compton.boostedN d' R_b δ gamma := by
  unfold Compton.boostedN Dist.evaluate
  dsimp only
  rw [quiet_afterCall h.quiet, quiet_afterCall h.quiet', List.map_congr_left h.call]

/-- two sets of parameters that differ in the limits of the spectrum only -/
structure OnlyLimits (kwargs kwargs' : Pars) (la lb la' lb' : ℝ) : Prop where
  low : kwargs.lookup (log10_ .gamma_min) = some la
  up : kwargs.lookup (log10_ .gamma_max) = some lb
  low' : kwargs'.lookup (log10_ .gamma_min) = some la'
  up' : kwargs'.lookup (log10_ .gamma_max) = some lb'
  rest : ∀ n : Name, n.base ≠ .gamma_min → n.base ≠ .gamma_max → kwargs'.lookup n = kwargs.lookup n

theorem OnlyLimits.spectrum {kwargs kwargs' : Pars} {la lb la' lb' : ℝ} (h : OnlyLimits kwargs kwargs' la lb la' lb')
    (n_e : Dist) :
    (∀ args, sortSpectral (spectralNames n_e) kwargs = some args → ∃ n args',
      withParameters n_e args = some (otherLimits ((10 : ℝ) ^ la) ((10 : ℝ) ^ lb) n)
      ∧ sortSpectral (spectralNames n_e) kwargs' = some args'
      ∧ withParameters n_e args' = some (otherLimits ((10 : ℝ) ^ la') ((10 : ℝ) ^ lb') n))
    ∧ (sortSpectral (spectralNames n_e) kwargs = none → sortSpectral (spectralNames n_e) kwargs' = none) := by
  have hk := h.rest (log10_ .k) (by decide) (by decide)
  have hp := h.rest (plain .p) (by decide) (by decide)
  have hp1 := h.rest (plain .p1) (by decide) (by decide)
  have hp2 := h.rest (plain .p2) (by decide) (by decide)
  have hq := h.rest (plain .q) (by decide) (by decide)
  have hgc := h.rest (log10_ .gamma_c) (by decide) (by decide)
  have hgb := h.rest (log10_ .gamma_b) (by decide) (by decide)
  have hg0 := h.rest (log10_ .gamma_0) (by decide) (by decide)
  have hn := h.rest (log10_ .norm) (by decide) (by decide)
  have hl := h.low
  have hu := h.up
  have hl' := h.low'
  have hu' := h.up'
  simp only [plain, log10_] at hk hp hp1 hp2 hq hgc hgb hg0 hn hl hu hl' hu'
  cases n_e with
  | powerLaw k p _ _ =>
    simp only [spectralNames, pars_powerLaw, List.map_cons, List.map_nil, plain, log10_, sortSpectral, List.mapM_cons,
      List.mapM_nil, hk, hp, hl, hu, hl', hu']
    generalize List.lookup (⟨true, .k⟩ : Name) kwargs = o_k
    generalize List.lookup (⟨false, .p⟩ : Name) kwargs = o_p
    cases o_k <;> cases o_p <;>
      first
      | (simp; done)
      | (refine ⟨fun args e => ?_, fun e => by simp at e⟩
         simp at e
         subst e
         exact ⟨.powerLaw _ _ 0 0, _, rfl, by simp; rfl, rfl⟩)
  | broken k p1 p2 gb _ _ =>
    simp only [spectralNames, pars_broken, List.map_cons, List.map_nil, plain, log10_, sortSpectral, List.mapM_cons,
      List.mapM_nil, hk, hp1, hp2, hgb, hl, hu, hl', hu']
    generalize List.lookup (⟨true, .k⟩ : Name) kwargs = o_k
    generalize List.lookup (⟨false, .p1⟩ : Name) kwargs = o_p1
    generalize List.lookup (⟨false, .p2⟩ : Name) kwargs = o_p2
    generalize List.lookup (⟨true, .gamma_b⟩ : Name) kwargs = o_gb
    cases o_k <;> cases o_p1 <;> cases o_p2 <;> cases o_gb <;>
      first
      | (simp; done)
      | (refine ⟨fun args e => ?_, fun e => by simp at e⟩
         simp at e
         subst e
         exact ⟨.broken _ _ _ _ 0 0, _, rfl, by simp; rfl, rfl⟩)
  | logParabola k p q g0 _ _ =>
    simp only [spectralNames, pars_logParabola, List.map_cons, List.map_nil, plain, log10_, sortSpectral, List.mapM_cons,
      List.mapM_nil, hk, hp, hq, hg0, hl, hu, hl', hu']
    generalize List.lookup (⟨true, .k⟩ : Name) kwargs = o_k
    generalize List.lookup (⟨false, .p⟩ : Name) kwargs = o_p
    generalize List.lookup (⟨false, .q⟩ : Name) kwargs = o_q
    generalize List.lookup (⟨true, .gamma_0⟩ : Name) kwargs = o_g0
    cases o_k <;> cases o_p <;> cases o_q <;> cases o_g0 <;>
      first
      | (simp; done)
      | (refine ⟨fun args e => ?_, fun e => by simp at e⟩
         simp at e
         subst e
         exact ⟨.logParabola _ _ _ _ 0 0, _, rfl, by simp; rfl, rfl⟩)
  | ecpl k p gc _ _ =>
    simp only [spectralNames, pars_ecpl, List.map_cons, List.map_nil, plain, log10_, sortSpectral, List.mapM_cons,
      List.mapM_nil, hk, hp, hgc, hl, hu, hl', hu']
    generalize List.lookup (⟨true, .k⟩ : Name) kwargs = o_k
    generalize List.lookup (⟨false, .p⟩ : Name) kwargs = o_p
    generalize List.lookup (⟨true, .gamma_c⟩ : Name) kwargs = o_gc
    cases o_k <;> cases o_p <;> cases o_gc <;>
      first
      | (simp; done)
      | (refine ⟨fun args e => ?_, fun e => by simp at e⟩
         simp at e
         subst e
         exact ⟨.ecpl _ _ _ 0 0, _, rfl, by simp; rfl, rfl⟩)
  | ecbpl k p1 p2 gc gb _ _ =>
    simp only [spectralNames, pars_ecbpl, List.map_cons, List.map_nil, plain, log10_, sortSpectral, List.mapM_cons,
      List.mapM_nil, hk, hp1, hp2, hgc, hgb, hl, hu, hl', hu']
    generalize List.lookup (⟨true, .k⟩ : Name) kwargs = o_k
    generalize List.lookup (⟨false, .p1⟩ : Name) kwargs = o_p1
    generalize List.lookup (⟨false, .p2⟩ : Name) kwargs = o_p2
    generalize List.lookup (⟨true, .gamma_c⟩ : Name) kwargs = o_gc
    generalize List.lookup (⟨true, .gamma_b⟩ : Name) kwargs = o_gb
    cases o_k <;> cases o_p1 <;> cases o_p2 <;> cases o_gc <;> cases o_gb <;>
      first
      | (simp; done)
      | (refine ⟨fun args e => ?_, fun e => by simp at e⟩
         simp at e
         subst e
         exact ⟨.ecbpl _ _ _ _ _ 0 0, _, rfl, by simp; rfl, rfl⟩)
  | interp f df norm _ _ =>
    simp only [spectralNames, pars_interp, List.map_cons, List.map_nil, plain, log10_, sortSpectral, List.mapM_cons,
      List.mapM_nil, hn, hl, hu, hl', hu']
    generalize List.lookup (⟨true, .norm⟩ : Name) kwargs = o_n
    cases o_n <;>
      first
      | (simp; done)
      | (refine ⟨fun args e => ?_, fun e => by simp at e⟩
         simp at e
         subst e
         exact ⟨.interp f df _ 0 0, _, rfl, by simp; rfl, rfl⟩)
  | empty _ _ =>
    simp only [spectralNames, pars_empty, List.map_cons, List.map_nil, plain, log10_, sortSpectral, List.mapM_cons,
      List.mapM_nil, hl, hu, hl', hu']
    refine ⟨fun args e => ?_, fun e => by simp at e⟩
    simp at e
    subst e
    exact ⟨.empty 0 0, _, rfl, by simp; rfl, rfl⟩

theorem OnlyLimits.emission {kwargs kwargs' : Pars} {la lb la' lb' : ℝ} (h : OnlyLimits kwargs kwargs' la lb la' lb') :
    sortEmission k distance kwargs' = sortEmission k distance kwargs ∧ sortJet kwargs' = sortJet kwargs
      ∧ sortDisk kwargs' = sortDisk kwargs ∧ sortBLR k kwargs' = sortBLR k kwargs ∧ sortDT k kwargs' = sortDT k kwargs := by
  have e : ∀ n : Name, n.base ≠ .gamma_min → n.base ≠ .gamma_max → kwargs'.lookup n = kwargs.lookup n := h.rest
  refine ⟨?_, ?_, ?_, ?_, ?_⟩
  · unfold sortEmission
    rw [e (plain .z) (by decide) (by decide), e (plain .delta_D) (by decide) (by decide),
      e (log10_ .B) (by decide) (by decide), e (plain .t_var) (by decide) (by decide)]
  · unfold sortJet
    rw [e (plain .mu_s) (by decide) (by decide), e (log10_ .r) (by decide) (by decide)]
  · unfold sortDisk
    rw [e (log10_ .L_disk) (by decide) (by decide), e (plain .M_BH) (by decide) (by decide),
      e (plain .m_dot) (by decide) (by decide), e (plain .R_in) (by decide) (by decide),
      e (plain .R_out) (by decide) (by decide)]
  · unfold sortBLR
    rw [e (plain .xi_line) (by decide) (by decide), e (plain .lambda_line) (by decide) (by decide),
      e (plain .R_line) (by decide) (by decide)]
  · unfold sortDT
    rw [e (plain .xi_dt) (by decide) (by decide), e (plain .T_dt) (by decide) (by decide),
      e (plain .R_dt) (by decide) (by decide)]

/-- neither pair of limits has a point of the array between it and the other, and no end of the array is corrected -/
structure Unresolved (gamma : List ℝ) (a b a' b' : ℝ) : Prop where
  quiet : NoCorrection a b gamma
  quiet' : NoCorrection a' b' gamma
  same : ∀ g ∈ gamma, (a ≤ g ∧ g ≤ b) ↔ (a' ≤ g ∧ g ≤ b')

theorem Unresolved.alike {gamma : List ℝ} {a b a' b' : ℝ} (h : Unresolved gamma a b a' b') (d : Dist) :
    Alike (otherLimits a b d) (otherLimits a' b' d) gamma :=
  alike_limits d h.quiet h.quiet' h.same

theorem Unresolved.synchPlusSSC {gamma : List ℝ} {a b a' b' : ℝ} (h : Unresolved gamma a b a' b') (ssa : Bool) (nu : ℝ)
    (e : Emission) (d : Dist) :
    synchPlusSSC k ssa nu e (otherLimits a b d) gamma = synchPlusSSC k ssa nu e (otherLimits a' b' d) gamma := by
  have hl := h.alike d
  have h1 : ∀ {d : Dist}, NoCorrection d.gmin d.gmax gamma → afterSynch d ssa gamma = gamma := by
    intro d q
    unfold afterSynch
    dsimp only
    rw [quiet_afterCall q, quiet_afterSSA q, ite_self]
  unfold Fit.synchPlusSSC
  dsimp only
  rw [h1 hl.quiet, h1 hl.quiet', hl.synchrotron, hl.ssc]

/-- C95: two settings of `log10_gamma_min` and `log10_gamma_max` between which there is no point of the array give the same SSC
model, with every other parameter, at every energy -/
theorem C95_ssc_flat {kwargs kwargs' : Pars} {la lb la' lb' : ℝ} (h : OnlyLimits kwargs kwargs' la lb la' lb') (n_e : Dist)
    (ssa : Bool) {gamma : List ℝ} (hu : Unresolved gamma ((10 : ℝ) ^ la) ((10 : ℝ) ^ lb) ((10 : ℝ) ^ la') ((10 : ℝ) ^ lb'))
    (energy : ℝ) :
    gammapySSC k distance n_e ssa gamma energy kwargs' = gammapySSC k distance n_e ssa gamma energy kwargs := by
  unfold gammapySSC
  dsimp only
  rw [h.emission.1]
  obtain ⟨h1, h2⟩ := h.spectrum n_e
  cases e : sortSpectral (spectralNames n_e) kwargs with
  | none => rw [h2 e]
  | some args =>
    obtain ⟨n, args', e1, e2, e3⟩ := h1 args e
    rw [e2]
    simp only [Option.bind_eq_bind, Option.bind_some, e1, e3, hu.synchPlusSSC]

/-- C95 for the EC model, if there is no point between the limits in the array of the external Compton parts (boosted back
into the frame of the blob) either -/
theorem C95_ec_flat {kwargs kwargs' : Pars} {la lb la' lb' : ℝ} (h : OnlyLimits kwargs kwargs' la lb la' lb') (n_e : Dist)
    (targets : List String) (ssa : Bool) {gamma : List ℝ}
    (hu : Unresolved gamma ((10 : ℝ) ^ la) ((10 : ℝ) ^ lb) ((10 : ℝ) ^ la') ((10 : ℝ) ^ lb'))
    (hx : ∀ δ, kwargs.lookup (plain .delta_D) = some δ →
      Unresolved (gammaToIntegrate.map (· / δ)) ((10 : ℝ) ^ la) ((10 : ℝ) ^ lb) ((10 : ℝ) ^ la') ((10 : ℝ) ^ lb'))
    (energy : ℝ) :
    gammapyEC k distance n_e targets ssa gamma energy kwargs' = gammapyEC k distance n_e targets ssa gamma energy kwargs := by
  unfold gammapyEC
  dsimp only
  obtain ⟨m1, m2, m3, m4, m5⟩ := h.emission (k := k) (distance := distance)
  rw [m1, m2, m3]
  obtain ⟨h1, h2⟩ := h.spectrum n_e
  cases e : sortSpectral (spectralNames n_e) kwargs with
  | none =>
    rw [h2 e]
    rfl
  | some args =>
    obtain ⟨n, args', e1, e2, e3⟩ := h1 args e
    rw [e2]
    simp only [Option.bind_eq_bind, Option.bind_some]
    cases em : sortEmission k distance kwargs with
    | none => rfl
    | some m =>
      have hδ : kwargs.lookup (plain .delta_D) = some m.delta_D := by
        unfold sortEmission at em
        simp only [Option.bind_eq_bind, Option.bind_eq_some_iff] at em
        obtain ⟨z, -, δ, hδ, B, -, t, -, em⟩ := em
        cases em
        exact hδ
      have hb : ∀ R_b, Compton.boostedN (otherLimits ((10 : ℝ) ^ la') ((10 : ℝ) ^ lb') n) R_b m.delta_D gammaToIntegrate
          = Compton.boostedN (otherLimits ((10 : ℝ) ^ la) ((10 : ℝ) ^ lb) n) R_b m.delta_D gammaToIntegrate :=
        fun R_b => (((hx _ hδ).alike n).boosted R_b).symm
      have hblr : ∀ nu mu_s r L, gammapyBLR k targets nu m mu_s r L (otherLimits ((10 : ℝ) ^ la') ((10 : ℝ) ^ lb') n) kwargs'
          = gammapyBLR k targets nu m mu_s r L (otherLimits ((10 : ℝ) ^ la) ((10 : ℝ) ^ lb) n) kwargs := by
        intro nu mu_s r L
        unfold gammapyBLR Compton.blr
        dsimp only
        rw [m4, hb]
      have hdt : ∀ nu mu_s r L, gammapyDT k targets nu m mu_s r L (otherLimits ((10 : ℝ) ^ la') ((10 : ℝ) ^ lb') n) kwargs'
          = gammapyDT k targets nu m mu_s r L (otherLimits ((10 : ℝ) ^ la) ((10 : ℝ) ^ lb) n) kwargs := by
        intro nu mu_s r L
        unfold gammapyDT Compton.dt
        dsimp only
        rw [m5, hb]
      simp only [Option.bind_some, e1, e3, hu.synchPlusSSC, hblr, hdt]

/-! ### The array of the wrappers -/

/-- the exponents of the points of the array: 1, 1 + 8/199, ..., 9 -/
noncomputable def node (i : ℕ) : ℝ := 1 + i * (8 / 199)

theorem mem_array {g : ℝ} (hg : g ∈ gammaEToIntegrate) : ∃ i, i < 200 ∧ g = (10 : ℝ) ^ node i := by
  unfold gammaEToIntegrate logspace linspace at hg
  obtain ⟨e, he, rfl⟩ := List.mem_map.1 hg
  obtain ⟨i, hi, rfl⟩ := List.mem_map.1 he
  refine ⟨i, List.mem_range.1 hi, ?_⟩
  unfold node
  norm_num

theorem ten_rpow_le {x y : ℝ} : (10 : ℝ) ^ x ≤ (10 : ℝ) ^ y ↔ x ≤ y := Real.rpow_le_rpow_left_iff (by norm_num)

theorem ten_rpow_thousandth : (1 : ℝ) + 1 / 1000 ≤ (10 : ℝ) ^ ((1 : ℝ) / 1000) := by
  have h1 : (1 : ℝ) ≤ Real.log 10 := by
    rw [Real.le_log_iff_exp_le (by norm_num)]
    have := Real.exp_one_lt_d9
    linarith
  rw [Real.rpow_def_of_pos (by norm_num)]
  have := Real.add_one_le_exp (Real.log 10 * (1 / 1000))
  linarith

/-- no end of the array is corrected unless a limit is just inside of it -/
theorem quiet_array {la lb : ℝ} (ha : la ≤ 1 ∨ 1 + 1 / 1000 ≤ la) (hb : 9 ≤ lb ∨ lb ≤ 9 - 1 / 1000) :
    NoCorrection ((10 : ℝ) ^ la) ((10 : ℝ) ^ lb) gammaEToIntegrate := by
  obtain ⟨rest, e, -, hl, -⟩ := shared_array
  have h := ten_rpow_thousandth
  rw [e]
  constructor
  · intro g hg
    simp only [List.head?_cons, Option.some.injEq] at hg
    subst hg
    rcases ha with ha | ha
    · left
      calc (10 : ℝ) ^ la ≤ (10 : ℝ) ^ (1 : ℝ) := ten_rpow_le.2 ha
        _ = 10 := Real.rpow_one _
    · right
      have h1 : (10 : ℝ) ^ (1 + 1 / 1000 : ℝ) ≤ (10 : ℝ) ^ la := ten_rpow_le.2 ha
      rw [Real.rpow_add (by norm_num), Real.rpow_one] at h1
      rw [le_div_iff₀ (by norm_num)]
      linarith
  · intro g hg
    rw [hl, Option.some.injEq] at hg
    subst hg
    have h9 : (10 : ℝ) ^ (9 : ℝ) = 10 ^ 9 := by norm_num
    rcases hb with hb | hb
    · left
      rw [← h9]
      exact ten_rpow_le.2 hb
    · right
      have h1 : (10 : ℝ) ^ (lb + 1 / 1000) ≤ (10 : ℝ) ^ (9 : ℝ) := ten_rpow_le.2 (by linarith)
      rw [Real.rpow_add (by norm_num), h9] at h1
      have hp : (0 : ℝ) < (10 : ℝ) ^ lb := by positivity
      rw [le_div_iff₀ hp]
      nlinarith

theorem unresolved_array {la lb la' lb' : ℝ} (ha : la ≤ 1 ∨ 1 + 1 / 1000 ≤ la) (hb : 9 ≤ lb ∨ lb ≤ 9 - 1 / 1000)
    (ha' : la' ≤ 1 ∨ 1 + 1 / 1000 ≤ la') (hb' : 9 ≤ lb' ∨ lb' ≤ 9 - 1 / 1000)
    (h : ∀ i, i < 200 → ((la ≤ node i ∧ node i ≤ lb) ↔ (la' ≤ node i ∧ node i ≤ lb'))) :
    Unresolved gammaEToIntegrate ((10 : ℝ) ^ la) ((10 : ℝ) ^ lb) ((10 : ℝ) ^ la') ((10 : ℝ) ^ lb') where
  quiet := quiet_array ha hb
  quiet' := quiet_array ha' hb'
  same g hg := by
    obtain ⟨i, hi, rfl⟩ := mem_array hg
    simp only [ten_rpow_le]
    exact h i hi

theorem node_mono {i j : ℕ} (h : i ≤ j) : node i ≤ node j := by
  unfold node
  have : (i : ℝ) ≤ j := by exact_mod_cast h
  gcongr

/-- C95: the SSC model is constant in `log10_gamma_min` between two neighbouring points of the array, 1 + 8 i / 199 (excluded)
and 1 + 8 (i + 1) / 199 (included) -/
theorem C95_steps {kwargs kwargs' : Pars} {la la' lb : ℝ} (h : OnlyLimits kwargs kwargs' la lb la' lb) (n_e : Dist)
    (ssa : Bool) {i : ℕ} (h1 : 1 + (i : ℝ) * (8 / 199) < la) (h2 : la ≤ 1 + ((i : ℝ) + 1) * (8 / 199))
    (h1' : 1 + (i : ℝ) * (8 / 199) < la') (h2' : la' ≤ 1 + ((i : ℝ) + 1) * (8 / 199))
    (hq : 1 + 1 / 1000 ≤ la) (hq' : 1 + 1 / 1000 ≤ la') (hb : 9 ≤ lb ∨ lb ≤ 9 - 1 / 1000) (energy : ℝ) :
    gammapySSC k distance n_e ssa gammaEToIntegrate energy kwargs'
      = gammapySSC k distance n_e ssa gammaEToIntegrate energy kwargs := by
  refine C95_ssc_flat h n_e ssa (unresolved_array (.inr hq) hb (.inr hq') hb fun j _ => ?_) energy
  have e : ∀ x : ℝ, node i < x → x ≤ node (i + 1) → (x ≤ node j ↔ i + 1 ≤ j) := by
    intro x g1 g2
    constructor
    · intro hx
      by_contra hj
      have := node_mono (show j ≤ i by omega)
      linarith
    · intro hj
      exact g2.trans (node_mono hj)
  rw [e la h1 (by unfold node; push_cast; exact h2), e la' h1' (by unfold node; push_cast; exact h2')]

/-- C95: electrons with Lorentz factors below 10 or above 1e9 do not count: below, `log10_gamma_min` has no effect; above,
`log10_gamma_max` has none -/
theorem C95_range {kwargs kwargs' : Pars} {la la' lb lb' : ℝ} (h : OnlyLimits kwargs kwargs' la lb la' lb') (n_e : Dist)
    (ssa : Bool) (ha : la = la' ∧ (la ≤ 1 ∨ 1 + 1 / 1000 ≤ la) ∨ la ≤ 1 ∧ la' ≤ 1)
    (hb : lb = lb' ∧ (9 ≤ lb ∨ lb ≤ 9 - 1 / 1000) ∨ 9 ≤ lb ∧ 9 ≤ lb') (energy : ℝ) :
    gammapySSC k distance n_e ssa gammaEToIntegrate energy kwargs'
      = gammapySSC k distance n_e ssa gammaEToIntegrate energy kwargs := by
  have q1 : la ≤ 1 ∨ 1 + 1 / 1000 ≤ la := ha.elim (·.2) fun h => .inl h.1
  have q2 : la' ≤ 1 ∨ 1 + 1 / 1000 ≤ la' := ha.elim (fun h => h.1 ▸ h.2) fun h => .inl h.2
  have q3 : 9 ≤ lb ∨ lb ≤ 9 - 1 / 1000 := hb.elim (·.2) fun h => .inl h.1
  have q4 : 9 ≤ lb' ∨ lb' ≤ 9 - 1 / 1000 := hb.elim (fun h => h.1 ▸ h.2) fun h => .inl h.2
  refine C95_ssc_flat h n_e ssa (unresolved_array q1 q3 q2 q4 fun i hi => ?_) energy
  have h0 : 1 ≤ node i := by
    unfold node
    have : (0 : ℝ) ≤ i := by positivity
    linarith
  have h9 : node i ≤ 9 := by
    have : (i : ℝ) ≤ 199 := by exact_mod_cast (by omega : i ≤ 199)
    unfold node
    linarith
  have e1 : la ≤ node i ↔ la' ≤ node i := by
    rcases ha with ⟨rfl, -⟩ | ⟨g1, g2⟩
    · rfl
    · exact ⟨fun _ => g2.trans h0, fun _ => g1.trans h0⟩
  have e2 : node i ≤ lb ↔ node i ≤ lb' := by
    rcases hb with ⟨rfl, -⟩ | ⟨g1, g2⟩
    · rfl
    · exact ⟨fun _ => h9.trans g2, fun _ => h9.trans g1⟩
  rw [e1, e2]

/-! ### The jumps -/

/-- an integrand that is larger at one point, and nowhere smaller, has a larger trapezoidal sum -/
theorem over_trapz_lt {grid : List ℝ} {f g : ℝ → ℝ} (hc : grid.IsChain (· < ·)) (h2 : 2 ≤ grid.length)
    (h : ∀ x ∈ grid, f x ≤ g x) {x : ℝ} (hx : x ∈ grid) (hlt : f x < g x) : over trapz grid f < over trapz grid g := by
  induction grid with
  | nil => simp at h2
  | cons a l ih =>
    cases l with
    | nil => simp at h2
    | cons b l =>
      obtain ⟨hab, hc'⟩ := List.isChain_cons_cons.1 hc
      have ha := h a (by simp)
      have hb := h b (by simp)
      have hl : ∀ x ∈ b :: l, f x ≤ g x := fun x hx => h x (List.mem_cons_of_mem _ hx)
      have hle : over trapz (b :: l) f ≤ over trapz (b :: l) g := over_trapz_mono (hc'.imp fun _ _ => le_of_lt) hl
      have split : ∀ f : ℝ → ℝ, over trapz (a :: b :: l) f = (b - a) * (f a + f b) / 2 + over trapz (b :: l) f := fun _ => rfl
      rw [split, split]
      by_cases hs : f a < g a ∨ f b < g b
      · have : f a + f b < g a + g b := by rcases hs with hs | hs <;> linarith
        have := mul_lt_mul_of_pos_left this (sub_pos.2 hab)
        linarith
      · push Not at hs
        have hxl : x ∈ b :: l := by
          rcases List.mem_cons.1 hx with rfl | hx
          · exact absurd hlt (not_lt.2 hs.1)
          · exact hx
        have hne : l ≠ [] := by
          rintro rfl
          rw [List.mem_singleton] at hxl
          subst hxl
          exact absurd hlt (not_lt.2 hs.2)
        have := ih hc' (by
          have := List.length_pos_of_ne_nil hne
          simp only [List.length_cons]
          omega) hl hxl
        have h3 := mul_le_mul_of_nonneg_left (add_le_add ha hb) (sub_pos.2 hab).le
        linarith

/-- the spectrum `d'` is nowhere above `d` on the array -/
structure Below (d' d : Dist) (gamma : List ℝ) : Prop where
  quiet' : NoCorrection d'.gmin d'.gmax gamma
  quiet : NoCorrection d.gmin d.gmax gamma
  le : ∀ g ∈ gamma, d'.call g ≤ d.call g

section jump

variable {nu z d_L δ B R_b : ℝ} {d d' : Dist} {gamma : List ℝ}

theorem Below.synchrotron (h : Below d' d gamma) (hp : Synchrotron.Physical k nu z d_L δ B R_b d)
    (hc : gamma.IsChain (· ≤ ·)) (hg : ∀ g ∈ gamma, 0 < g) :
    Synchrotron.sedFlux k trapz false nu z d_L δ B R_b d' gamma ≤ Synchrotron.sedFlux k trapz false nu z d_L δ B R_b d gamma := by
  show Synchrotron.sedThin k trapz nu z d_L δ B R_b d' gamma ≤ Synchrotron.sedThin k trapz nu z d_L δ B R_b d gamma
  rw [Synchrotron.sedThin_eq, Synchrotron.sedThin_eq, quiet_afterCall h.quiet, quiet_afterCall h.quiet']
  have he := Synchrotron.nuToEps_pos hp.consts hp.nu hp.z hp.delta
  have := hp.delta; have := hp.d_L; have := hp.R_b
  have hV : 0 ≤ Synchrotron.volume R_b := by
    unfold Synchrotron.volume
    positivity
  refine mul_le_mul_of_nonneg_left (over_trapz_mono hc fun g hm => ?_) (by positivity)
  have h1 := h.le g hm
  have h2 := (Synchrotron.power_pos hp.consts hp.B he hp.consts.m_e (hg g hm)).le
  gcongr

theorem Below.synchrotron_lt (h : Below d' d gamma) (hp : Synchrotron.Physical k nu z d_L δ B R_b d)
    (hc : gamma.IsChain (· < ·)) (h2 : 2 ≤ gamma.length) (hg : ∀ g ∈ gamma, 0 < g) {g : ℝ} (hm : g ∈ gamma)
    (hlt : d'.call g < d.call g) :
    Synchrotron.sedFlux k trapz false nu z d_L δ B R_b d' gamma < Synchrotron.sedFlux k trapz false nu z d_L δ B R_b d gamma := by
  show Synchrotron.sedThin k trapz nu z d_L δ B R_b d' gamma < Synchrotron.sedThin k trapz nu z d_L δ B R_b d gamma
  rw [Synchrotron.sedThin_eq, Synchrotron.sedThin_eq, quiet_afterCall h.quiet, quiet_afterCall h.quiet']
  have he := Synchrotron.nuToEps_pos hp.consts hp.nu hp.z hp.delta
  have := hp.delta; have := hp.d_L; have := hp.R_b
  have hV : 0 < Synchrotron.volume R_b := by
    unfold Synchrotron.volume
    positivity
  have hP := fun g hm => Synchrotron.power_pos hp.consts hp.B he hp.consts.m_e (hg g hm)
  refine mul_lt_mul_of_pos_left (over_trapz_lt hc h2 (fun g hm => ?_) hm ?_) (by positivity)
  · have h1 := h.le g hm
    have h2 := (hP g hm).le
    gcongr
  · have := hP g hm
    gcongr

theorem Below.ssc (h : Below d' d gamma) (hp : Synchrotron.Physical k nu z d_L δ B R_b d) (hd' : d'.Positive)
    (hc : gamma.IsChain (· ≤ ·)) (hg : ∀ g ∈ gamma, 0 < g) :
    Compton.sscSed k trapz false nu z d_L δ B R_b d' gamma ≤ Compton.sscSed k trapz false nu z d_L δ B R_b d gamma := by
  unfold Compton.sscSed
  dsimp only
  simp only [Bool.false_eq_true, if_false]
  simp only [quiet_afterCall h.quiet, quiet_afterCall h.quiet']
  have := hp.consts.c; have := hp.consts.sigma_T; have := hp.delta; have := hp.d_L; have := Real.pi_pos
  have hR := hp.R_b
  have hV : 0 ≤ Synchrotron.volume R_b := by
    unfold Synchrotron.volume
    positivity
  have hpn : ∀ nu', 0 < nu' → Synchrotron.Physical k nu' z d_L δ B R_b d := fun nu' h' =>
    ⟨hp.consts, h', hp.z, hp.d_L, hp.delta, hp.B, hp.R_b, hp.dist⟩
  have hpn' : ∀ nu', 0 < nu' → Synchrotron.Physical k nu' z d_L δ B R_b d' := fun nu' h' =>
    ⟨hp.consts, h', hp.z, hp.d_L, hp.delta, hp.B, hp.R_b, hd'⟩
  have hch : (Compton.nuToIntegrate.map fun nu => nuToEps k nu z δ).IsChain (· ≤ ·) := by
    rw [List.isChain_iff_pairwise, List.pairwise_map]
    refine (logspace_pairwise (by norm_num) 200 (by norm_num)).imp ?_
    intro x y hxy
    unfold nuToEps Consts.mec2
    have := hp.consts.h; have := hp.consts.m_e; have := hp.z
    gcongr
  apply mul_le_mul_of_nonneg_left _ (by positivity)
  apply mul_le_mul_of_nonneg_left _ (by positivity)
  apply trapz_mono _ _ _ _ hch
  intro nu' hn'
  have hn0 : 0 < nu' := logspace_pos nu' hn'
  have he := Synchrotron.nuToEps_pos hp.consts hn0 hp.z hp.delta
  apply over_trapz_mono hc
  intro g hgm
  have hg0 := hg g hgm
  have hsed := h.synchrotron (hpn nu' hn0) hc hg
  have hs0 := Synchrotron.C51_nonneg (hpn' nu' hn0) nonneg_trapz false (gamma := gamma)
    (by rw [quiet_afterCall h.quiet']; exact hc) (by rw [quiet_afterCall h.quiet']; exact hg)
  have hn := C23_nonneg hd' g
  have hle := h.le g hgm
  have hk := Kernels.C40_nonneg hg0 he.le (εs := nuToEps k nu z δ)
  have hu : uPhSynchDiff k R_b d_L δ (nuToEps k nu' z δ) (Synchrotron.sedFlux k trapz false nu' z d_L δ B R_b d' gamma)
      ≤ uPhSynchDiff k R_b d_L δ (nuToEps k nu' z δ) (Synchrotron.sedFlux k trapz false nu' z d_L δ B R_b d gamma) := by
    unfold uPhSynchDiff
    dsimp only
    gcongr
  have hu0 : 0 ≤ uPhSynchDiff k R_b d_L δ (nuToEps k nu' z δ)
      (Synchrotron.sedFlux k trapz false nu' z d_L δ B R_b d' gamma) := by
    unfold uPhSynchDiff
    dsimp only
    positivity
  have hu1 := hu0.trans hu
  gcongr

end jump

theorem otherLimits_positive {a b a' b' : ℝ} {d : Dist} (h : (otherLimits a b d).Positive) (ha : 0 < a') :
    (otherLimits a' b' d).Positive := by
  cases d <;> simp only [otherLimits, Dist.Positive] at h ⊢ <;> tauto

theorem otherLimits_nonEmpty {a b a' b' : ℝ} {d : Dist} (h : (otherLimits a b d).NonEmpty) :
    (otherLimits a' b' d).NonEmpty := by
  cases d <;> simp only [otherLimits, Dist.NonEmpty] at h ⊢

theorem array_chain : gammaEToIntegrate.IsChain (· < ·) :=
  List.isChain_iff_pairwise.2 (logspace_pairwise (by norm_num) 200 (by norm_num))

theorem node_mem {i : ℕ} (hi : i < 200) : (10 : ℝ) ^ node i ∈ gammaEToIntegrate := by
  unfold gammaEToIntegrate logspace linspace
  refine List.mem_map.2 ⟨node i, List.mem_map.2 ⟨i, List.mem_range.2 hi, ?_⟩, rfl⟩
  unfold node
  norm_num

/-- C95: raising `log10_gamma_min` over a point of the array, however little, lowers the SSC model (without self-absorption) -/
theorem C95_jump {kwargs kwargs' : Pars} {la la' lb : ℝ} (h : OnlyLimits kwargs kwargs' la lb la' lb) {n_e d : Dist}
    {args : List ℝ} {e : Emission} {energy : ℝ} (hs : sortSpectral (spectralNames n_e) kwargs = some args)
    (hd : withParameters n_e args = some d) (he : sortEmission k distance kwargs = some e) (hn : d.NonEmpty)
    (hp : Synchrotron.Physical k (energy / k.h) e.z e.d_L e.delta_D e.B e.R_b d) (hE : 0 < energy) {i : ℕ} (hi : i < 200)
    (h1 : la ≤ 1 + i * (8 / 199)) (h2 : 1 + i * (8 / 199) < la') (h3 : 1 + i * (8 / 199) ≤ lb)
    (hq : la ≤ 1 ∨ 1 + 1 / 1000 ≤ la) (hq' : 1 + 1 / 1000 ≤ la') (hb : 9 ≤ lb ∨ lb ≤ 9 - 1 / 1000) :
    ∃ x x', gammapySSC k distance n_e false gammaEToIntegrate energy kwargs = some x
      ∧ gammapySSC k distance n_e false gammaEToIntegrate energy kwargs' = some x' ∧ x' < x := by
  obtain ⟨n, args', e1, e2, e3⟩ := (h.spectrum n_e).1 args hs
  rw [hd, Option.some.injEq] at e1
  subst e1
  have q1 : NoCorrection (otherLimits ((10 : ℝ) ^ la) ((10 : ℝ) ^ lb) n).gmin
      (otherLimits ((10 : ℝ) ^ la) ((10 : ℝ) ^ lb) n).gmax gammaEToIntegrate := by
    rw [otherLimits_gmin, otherLimits_gmax]
    exact quiet_array hq hb
  have q2 : NoCorrection (otherLimits ((10 : ℝ) ^ la') ((10 : ℝ) ^ lb) n).gmin
      (otherLimits ((10 : ℝ) ^ la') ((10 : ℝ) ^ lb) n).gmax gammaEToIntegrate := by
    rw [otherLimits_gmin, otherLimits_gmax]
    exact quiet_array (.inr hq') hb
  have hpos' := otherLimits_positive (b' := (10 : ℝ) ^ lb) hp.dist (show (0 : ℝ) < (10 : ℝ) ^ la' by positivity)
  have hlt : la < la' := lt_of_le_of_lt h1 h2
  have hbelow : Below (otherLimits ((10 : ℝ) ^ la') ((10 : ℝ) ^ lb) n) (otherLimits ((10 : ℝ) ^ la) ((10 : ℝ) ^ lb) n)
      gammaEToIntegrate := by
    refine ⟨q2, q1, fun g hg => ?_⟩
    by_cases hin : InBounds ((10 : ℝ) ^ la') ((10 : ℝ) ^ lb) g
    · refine (otherLimits_call n ⟨fun _ => ⟨?_, hin.2⟩, fun _ => hin⟩).le
      exact (ten_rpow_le.2 hlt.le).trans hin.1
    · rw [C23_outside]
      · exact C23_nonneg hp.dist g
      · rw [otherLimits_gmin, otherLimits_gmax]
        by_contra hc
        push Not at hc
        exact hin ⟨hc.1, hc.2⟩
  have hstrict : (otherLimits ((10 : ℝ) ^ la') ((10 : ℝ) ^ lb) n).call ((10 : ℝ) ^ node i)
      < (otherLimits ((10 : ℝ) ^ la) ((10 : ℝ) ^ lb) n).call ((10 : ℝ) ^ node i) := by
    rw [C23_outside (otherLimits ((10 : ℝ) ^ la') ((10 : ℝ) ^ lb) n)]
    · refine C23_inside hp.dist hn ?_ ?_
      · rw [otherLimits_gmin]
        exact ten_rpow_le.2 h1
      · rw [otherLimits_gmax]
        exact ten_rpow_le.2 h3
    · left
      rw [otherLimits_gmin]
      exact (Real.rpow_lt_rpow_left_iff (by norm_num)).2 h2
  have hpos : ∀ g ∈ gammaEToIntegrate, 0 < g := logspace_pos
  have c1 := hbelow.synchrotron_lt hp array_chain (by simp [gammaEToIntegrate, logspace, linspace]) hpos (node_mem hi) hstrict
  have c2 := hbelow.ssc hp hpos' (array_chain.imp fun _ _ => le_of_lt) hpos
  refine ⟨synchPlusSSC k false (energy / k.h) e (otherLimits ((10 : ℝ) ^ la) ((10 : ℝ) ^ lb) n) gammaEToIntegrate / energy ^ 2,
    synchPlusSSC k false (energy / k.h) e (otherLimits ((10 : ℝ) ^ la') ((10 : ℝ) ^ lb) n) gammaEToIntegrate / energy ^ 2,
    ?_, ?_, ?_⟩
  · simp only [gammapySSC, hs, hd, he, Option.bind_eq_bind, Option.bind_some]
  · simp only [gammapySSC, e2, e3, h.emission.1, he, Option.bind_eq_bind, Option.bind_some]
  · apply div_lt_div_of_pos_right _ (by positivity)
    unfold synchPlusSSC afterSynch
    simp only [Bool.false_eq_true, if_false]
    rw [quiet_afterCall q1, quiet_afterCall q2]
    linarith

/-- parameters of an SSC model of a power law from `10^t` to 1e5 -/
def stepPars (t : ℝ) : Pars :=
  [(log10_ .k, 0), (plain .p, 2), (log10_ .gamma_min, t), (log10_ .gamma_max, 5), (plain .z, 0), (plain .delta_D, 10),
    (log10_ .B, 0), (plain .t_var, 1)]

theorem stepPars_limits (t t' : ℝ) : OnlyLimits (stepPars t) (stepPars t') t 5 t' 5 := by
  refine ⟨rfl, rfl, rfl, rfl, fun n h1 h2 => ?_⟩
  have h3 : n ≠ log10_ .gamma_min := fun e => h1 (by rw [e]; rfl)
  have h4 : n ≠ log10_ .gamma_max := fun e => h2 (by rw [e]; rfl)
  unfold stepPars
  simp only [lookup_if, h3, h4, if_false]

/-- C95 fails as a claim of continuity: a model that has one value up to a point of the array and a smaller one beyond -/
theorem C95_violated : ∃ (k : Consts) (distance : ℝ → ℝ) (n_e : Dist) (energy x x' : ℝ), k.Pos ∧ x' < x
    ∧ (∀ t, 1 + 1 / 1000 ≤ t → t ≤ 1 + 8 / 199 →
      gammapySSC k distance n_e false gammaEToIntegrate energy (stepPars t) = some x)
    ∧ ∀ t, 1 + 8 / 199 < t → t ≤ 1 + 16 / 199 →
      gammapySSC k distance n_e false gammaEToIntegrate energy (stepPars t) = some x' := by
  have hp : Synchrotron.Physical ⟨1, 1, 1, 1, 1, 1, 1, 1, 1, 1⟩ (1 / 1) 0 1 10 ((10 : ℝ) ^ (0 : ℝ)) (1 * 1 * 10 / (1 + 0))
      (.powerLaw ((10 : ℝ) ^ (0 : ℝ)) 2 ((10 : ℝ) ^ (1 + 8 / 199 : ℝ)) ((10 : ℝ) ^ (5 : ℝ))) :=
    { consts := by constructor <;> norm_num
      nu := by norm_num, z := by norm_num, d_L := by norm_num, delta := by norm_num, B := by norm_num
      R_b := by norm_num, dist := by constructor <;> positivity }
  obtain ⟨x, x', h1, h2, h3⟩ := C95_jump (k := ⟨1, 1, 1, 1, 1, 1, 1, 1, 1, 1⟩) (distance := fun _ => 1)
    (stepPars_limits (1 + 8 / 199) (1 + 16 / 199)) (n_e := .powerLaw 1 2 10 100) (energy := 1)
    (e := ⟨0, 1, 10, (10 : ℝ) ^ (0 : ℝ), 1 * 1 * 10 / (1 + 0)⟩) (i := 1) rfl rfl rfl trivial hp (by norm_num)
    (by norm_num) (by norm_num) (by norm_num) (by norm_num) (.inr (by norm_num)) (by norm_num) (.inr (by norm_num))
  refine ⟨⟨1, 1, 1, 1, 1, 1, 1, 1, 1, 1⟩, fun _ => 1, .powerLaw 1 2 10 100, 1, x, x', hp.consts, h3, fun t g1 g2 => ?_,
    fun t g1 g2 => ?_⟩
  · rw [← h1]
    exact C95_steps (stepPars_limits (1 + 8 / 199) t) _ _ (i := 0) (by norm_num) (by norm_num) (by norm_num; linarith)
      (by norm_num; linarith) (by norm_num) g1 (.inr (by norm_num)) _
  · rw [← h2]
    exact C95_steps (stepPars_limits (1 + 16 / 199) t) _ _ (i := 1) (by norm_num) (by norm_num) (by norm_num; linarith)
      (by norm_num; linarith) (by norm_num) (by linarith) (.inr (by norm_num)) _

/-- the hypotheses of `C95_range`: a model from Lorentz factor 1 on is the model from 10 on -/
example (k : Consts) (distance : ℝ → ℝ) (energy : ℝ) :
    gammapySSC k distance (.powerLaw 1 2 10 100) true gammaEToIntegrate energy (stepPars 1)
      = gammapySSC k distance (.powerLaw 1 2 10 100) true gammaEToIntegrate energy (stepPars 0) :=
  C95_range (stepPars_limits 0 1) _ _ (.inr ⟨by norm_num, le_rfl⟩) (.inl ⟨rfl, .inr (by norm_num)⟩) _

/-! ### External Compton objects -/

/-- the blob with the electrons `d` -/
def electrons (a : EC) (d : Dist) : EC := { a with blob := { a.blob with n_e := d } }

/-- C95 for `ExternalCompton` on a blob, which integrates over 10 to 1e9 in the frame of the galaxy: limits between which
there is no point of that array (boosted into the frame of the blob) give the same SED, for every target -/
theorem C95_external_flat (a : EC) {x y x' y' : ℝ}
    (h : Unresolved (a.blob.gamma_e_external_frame.map (· / a.blob.delta_D)) x y x' y') (d : Dist) (nu : ℝ) :
    (electrons a (otherLimits x y d)).sedFlux k nu = (electrons a (otherLimits x' y' d)).sedFlux k nu := by
  have hb : ∀ R_b, Compton.boostedN (otherLimits x y d) R_b a.blob.delta_D a.blob.gamma_e_external_frame
      = Compton.boostedN (otherLimits x' y' d) R_b a.blob.delta_D a.blob.gamma_e_external_frame :=
    fun R_b => (h.alike d).boosted R_b
  have hg : ∀ d, (electrons a d).blob.gamma_e_external_frame = a.blob.gamma_e_external_frame := fun _ => rfl
  unfold EC.sedFlux
  simp only [hg]
  cases e : a.target <;> simp only [electrons, e, Blob.mu_s, Blob.Beta, isoMono, psBehindJet, ssDisk, blr, dt, hb]

/-- C95: electrons with Lorentz factors above 1e9 / delta_D do not count in external Compton scattering -/
theorem C95_external_range (a : EC) (hs : 2 ≤ a.blob.gamma_e_size) (hδ : 0 < a.blob.delta_D) {x y y' : ℝ}
    (hx : x ≤ 10 / a.blob.delta_D ∨ (10 + 1 / 10 ^ 9) / a.blob.delta_D ≤ x) (hy : 10 ^ 9 / a.blob.delta_D ≤ y) (hy' : 10 ^ 9 / a.blob.delta_D ≤ y')
    (d : Dist) (nu : ℝ) :
    (electrons a (otherLimits x y d)).sedFlux k nu = (electrons a (otherLimits x y' d)).sedFlux k nu := by
  have hle : ∀ g ∈ a.blob.gamma_e_external_frame.map (· / a.blob.delta_D),
      10 / a.blob.delta_D ≤ g ∧ g ≤ 10 ^ 9 / a.blob.delta_D := by
    intro g hg
    obtain ⟨g0, hg0, rfl⟩ := List.mem_map.1 hg
    obtain ⟨e, he, rfl⟩ := List.mem_map.1 hg0
    have := linspace_mem (by norm_num) hs he
    constructor
    · apply div_le_div_of_nonneg_right _ hδ.le
      calc (10 : ℝ) = (10 : ℝ) ^ (1 : ℝ) := (Real.rpow_one _).symm
        _ ≤ _ := ten_rpow_le.2 this.1
    · apply div_le_div_of_nonneg_right _ hδ.le
      calc (10 : ℝ) ^ e ≤ (10 : ℝ) ^ (9 : ℝ) := ten_rpow_le.2 this.2
        _ = 10 ^ 9 := by norm_num
  have hq : ∀ y, 10 ^ 9 / a.blob.delta_D ≤ y →
      NoCorrection x y (a.blob.gamma_e_external_frame.map (· / a.blob.delta_D)) := fun y hy =>
    ⟨fun g hg => by
      obtain ⟨mid, hm⟩ := logspace_ends_n (a := 10) (b := 10 ^ 9) (by norm_num) (by norm_num) hs
      rw [log10_ten, log10_billion] at hm
      have hh : g = 10 / a.blob.delta_D := by
        unfold Blob.gamma_e_external_frame at hg
        rw [hm] at hg
        simp only [List.map_cons, List.head?_cons, Option.some.injEq] at hg
        exact hg.symm
      rcases hx with hx | hx
      · exact .inl (hh ▸ hx)
      · right
        rw [hh, le_div_iff₀ (by positivity)]
        have : (10 + 1 / 10 ^ 9) / a.blob.delta_D = 10 / a.blob.delta_D + 1 / 10 ^ 10 * (10 / a.blob.delta_D) := by
          ring
        linarith,
      fun g hg => .inl ((hle g (List.mem_of_getLast? hg)).2.trans hy)⟩
  refine C95_external_flat a ⟨hq y hy, hq y' hy', fun g hg => ?_⟩ d nu
  exact ⟨fun h => ⟨h.1, (hle g hg).2.trans hy'⟩, fun h => ⟨h.1, (hle g hg).2.trans hy⟩⟩

/-- the hypotheses of `C95_external_range`: with `delta_D = 20` the SED of electrons up to 1e8 and up to 1e9 is the same -/
example (k : Consts) (a : EC) (hs : a.blob.gamma_e_size = 200) (hδ : a.blob.delta_D = 20) (nu : ℝ) :
    (electrons a (.powerLaw 1 2 100 (10 ^ 8))).sedFlux k nu = (electrons a (.powerLaw 1 2 100 (10 ^ 9))).sedFlux k nu :=
  C95_external_range a (by omega) (by rw [hδ]; norm_num) (.inr (by rw [hδ]; norm_num)) (by rw [hδ]; norm_num) (by rw [hδ]; norm_num)
    (.powerLaw 1 2 0 0) nu

end Verif.Fit
