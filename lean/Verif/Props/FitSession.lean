import Verif.Model.FitSession
import Verif.Props.Compton
import Verif.Lemmas.FixedGrid

/- C92: sequences of evaluations of fit models. -/

noncomputable section

namespace Verif.Fit

open MathUtils Spectra

variable {k : Consts} {distance : ℝ → ℝ}

theorem afterModel_same {n : Dist} {gamma : List ℝ} (h : NoCorrection n.gmin n.gmax gamma) (ssa : Bool) :
    afterModel n ssa gamma = gamma := by
  have h1 : n.afterCall gamma = gamma := (C29_unchanged_partial n h).1
  have h2 : n.afterSSA gamma = gamma := (C29_unchanged_partial n h).2
  have h3 : afterSynch n ssa gamma = gamma := by
    unfold afterSynch
    dsimp only
    rw [h1]
    split_ifs
    · exact h2
    · rfl
  unfold afterModel
  rw [h3, h3, h1]

/-- the spectrum of the call does not meet an end of the array within 1e-10 from outside -/
def Call.Quiet (k : Consts) (distance : ℝ → ℝ) (gamma : List ℝ) (c : Call) : Prop :=
  ∀ n ssa, c.spectrum k distance = some (n, ssa) → NoCorrection n.gmin n.gmax gamma

/-- C92: every evaluation of a sequence returns what it returns on its own, whichever models with whichever parameters were
evaluated before, if no spectrum starts or ends within 1e-10 inside the integration range -/
theorem C92_history (gamma : List ℝ) (calls : List Call) (h : ∀ c ∈ calls, c.Quiet k distance gamma) :
    session k distance gamma calls = calls.map (·.answers k distance gamma) := by
  induction calls with
  | nil => rfl
  | cons c cs ih =>
    have hc : c.after k distance gamma = gamma := by
      unfold Call.after
      cases hs : c.spectrum k distance with
      | none => rfl
      | some p => exact afterModel_same (h c List.mem_cons_self p.1 p.2 hs) p.2
    rw [session, hc, ih fun c hc => h c (List.mem_cons_of_mem _ hc)]
    rfl

theorem log10_ten : log10 10 = 1 := by
  unfold log10
  exact div_self (Real.log_pos (by norm_num)).ne'

theorem log10_billion : log10 (10 ^ 9) = 9 := by
  unfold log10
  rw [Real.log_pow, mul_div_assoc, div_self (Real.log_pos (by norm_num)).ne']
  norm_num

/-- the array begins at 10, ends at 1e9 and has no other point below 10.8 -/
theorem shared_array : ∃ rest, gammaEToIntegrate = 10 :: rest ∧ rest ≠ [] ∧ (10 :: rest).getLast? = some (10 ^ 9)
    ∧ rest.IsChain (· < ·) ∧ ∀ g ∈ rest, 108 / 10 ≤ g := by
  obtain ⟨mid, hm⟩ := logspace_ends_n (a := 10) (b := 10 ^ 9) (by norm_num) (by norm_num) (n := 200) (by norm_num)
  rw [log10_ten, log10_billion] at hm
  have hr := logspace_ratio (a := 1) (b := 9) (by norm_num) (n := 200) (by norm_num)
  have hp := logspace_pairwise (a := 1) (b := 9) (by norm_num) 200 (by norm_num)
  rw [hm] at hr hp
  refine ⟨mid ++ [10 ^ 9], hm, by simp, by rw [← List.cons_append, List.getLast?_append]; simp,
    List.isChain_iff_pairwise.2 (List.pairwise_cons.1 hp).2, ?_⟩
  obtain ⟨x, l, hl⟩ : ∃ x l, mid ++ [(10 : ℝ) ^ 9] = x :: l := List.exists_cons_of_ne_nil (by simp)
  rw [hl] at hr hp ⊢
  have h1 : (108 : ℝ) / 10 ≤ x := by
    have := (List.isChain_cons_cons.1 hr).1
    norm_num at this
    linarith
  intro g hg
  rcases List.mem_cons.1 hg with rfl | hg
  · exact h1
  · exact h1.trans ((List.pairwise_cons.1 (List.pairwise_cons.1 hp).2).1 g hg).le

/-- C92 for the array the wrappers share: it suffices that no minimum Lorentz factor is in the interval (10, 10+1e-9) and
no maximum one in (1e9-0.1, 1e9) -/
theorem C92_wrappers (calls : List Call) (h : ∀ c ∈ calls, ∀ n ssa, c.spectrum k distance = some (n, ssa) →
    0 < n.gmax ∧ (n.gmin ≤ 10 ∨ 10 + 1 / 10 ^ 9 ≤ n.gmin) ∧ (10 ^ 9 ≤ n.gmax ∨ n.gmax ≤ 10 ^ 9 - 1 / 10)) :
    session k distance gammaEToIntegrate calls = calls.map (·.answers k distance gammaEToIntegrate) := by
  refine C92_history _ _ fun c hc n ssa hs => ?_
  obtain ⟨rest, e, -, hl, -⟩ := shared_array
  obtain ⟨h0, h1, h2⟩ := h c hc n ssa hs
  rw [e]
  constructor
  · intro g hg
    simp only [List.head?_cons, Option.some.injEq] at hg
    subst hg
    rcases h1 with h1 | h1
    · exact Or.inl h1
    · right
      rw [le_div_iff₀ (by norm_num)]
      linarith
  · intro g hg
    rw [hl, Option.some.injEq] at hg
    subst hg
    rcases h2 with h2 | h2
    · exact Or.inl h2
    · right
      rw [le_div_iff₀ h0]
      linarith

/-! ### The exception -/

theorem ssc_nonneg {d : Dist} {gamma : List ℝ} {nu z d_L δ B R_b : ℝ} (hn : 0 < nu)
    (hp : Synchrotron.Physical k nu z d_L δ B R_b d) (hf : d.afterCall gamma = gamma) (hc : gamma.IsChain (· ≤ ·))
    (hg : ∀ g ∈ gamma, 0 < g) : 0 ≤ Compton.sscSed k trapz false nu z d_L δ B R_b d gamma := by
  unfold Compton.sscSed
  dsimp only
  simp only [Bool.false_eq_true, if_false]
  rw [hf, hf]
  have := hp.consts.c; have := hp.consts.sigma_T; have := hp.delta; have := hp.d_L; have := Real.pi_pos
  have hR := hp.R_b
  have hV : 0 ≤ Synchrotron.volume R_b := by
    unfold Synchrotron.volume
    positivity
  have hpn : ∀ nu', 0 < nu' → Synchrotron.Physical k nu' z d_L δ B R_b d := fun nu' h' =>
    ⟨hp.consts, h', hp.z, hp.d_L, hp.delta, hp.B, hp.R_b, hp.dist⟩
  have hch : (Compton.nuToIntegrate.map fun nu => nuToEps k nu z δ).IsChain (· ≤ ·) := by
    rw [List.isChain_iff_pairwise, List.pairwise_map]
    refine (logspace_pairwise (by norm_num) 200 (by norm_num)).imp ?_
    intro x y hxy
    unfold nuToEps Consts.mec2
    have := hp.consts.h; have := hp.consts.m_e; have := hp.z
    gcongr
  have hint : 0 ≤ trapz (Compton.nuToIntegrate.map fun nu' => over trapz gamma fun g =>
      Region.uPhSynchDiff k R_b d_L δ (nuToEps k nu' z δ)
          (Synchrotron.sedFlux k trapz false nu' z d_L δ B R_b d gamma)
        / nuToEps k nu' z δ ^ 2 * (Synchrotron.volume R_b * d.call g) / g ^ 2
        * Kernels.isotropicKernel g (nuToEps k nu' z δ) (nuToEps k nu z δ))
      (Compton.nuToIntegrate.map fun nu' => nuToEps k nu' z δ) := by
    apply nonneg_trapz _ _ hch
    · intro x hx
      obtain ⟨nu', hn', rfl⟩ := List.mem_map.1 hx
      exact Synchrotron.nuToEps_pos hp.consts (logspace_pos nu' hn') hp.z hp.delta
    · intro y hy
      obtain ⟨nu', hn', rfl⟩ := List.mem_map.1 hy
      have he := Synchrotron.nuToEps_pos hp.consts (logspace_pos nu' hn') hp.z hp.delta
      apply over_nonneg nonneg_trapz hc hg
      intro g hgm
      have hg0 := hg g hgm
      have hsed := Synchrotron.C51_nonneg (hpn nu' (logspace_pos nu' hn')) nonneg_trapz false (gamma := gamma)
        (by rw [hf]; exact hc) (by rw [hf]; exact hg)
      have hu : 0 ≤ Region.uPhSynchDiff k R_b d_L δ (nuToEps k nu' z δ)
          (Synchrotron.sedFlux k trapz false nu' z d_L δ B R_b d gamma) := by
        unfold Region.uPhSynchDiff
        positivity
      have hn := C23_nonneg hp.dist g
      have hk := Kernels.C40_nonneg hg0 he.le (εs := nuToEps k nu z δ)
      positivity
  positivity

/-- an SSC model of a power law from `a` to 10.5, evaluated at one energy -/
def narrow (a : ℝ) : Call :=
  .sherpaSSC (.powerLaw 1 2 10 100) false [1] [0, 2, log10 a, log10 (105 / 10), 0, 10, 0, 1]

theorem narrow_spectrum {a : ℝ} (ha : 0 < a) :
    (narrow a).spectrum k distance = some (.powerLaw 1 2 a (105 / 10), false) := by
  have h1 : (10 : ℝ) ^ log10 a = a := ten_pow_log10 ha
  have h2 : (10 : ℝ) ^ log10 (105 / 10) = 105 / 10 := ten_pow_log10 (by norm_num)
  simp [narrow, Call.spectrum, unpack, scaleSpectral, scaleAt, scaleEnd, withParameters, h1, h2]

theorem narrow_answers {a : ℝ} (ha : 0 < a) (gamma : List ℝ) :
    (narrow a).answers ⟨1, 1, 1, 1, 1, 1, 1, 1, 1, 1⟩ (fun _ => 1) gamma
      = [some (some (Synchrotron.sedFlux ⟨1, 1, 1, 1, 1, 1, 1, 1, 1, 1⟩ trapz false 1 0 1 10 1 10 (.powerLaw 1 2 a (105 / 10)) gamma
        + Compton.sscSed ⟨1, 1, 1, 1, 1, 1, 1, 1, 1, 1⟩ trapz false 1 0 1 10 1 10 (.powerLaw 1 2 a (105 / 10))
          ((Dist.powerLaw 1 2 a (105 / 10)).afterCall gamma)))] := by
  have h1 : (10 : ℝ) ^ log10 a = a := ten_pow_log10 ha
  have h2 : (10 : ℝ) ^ log10 (105 / 10) = 105 / 10 := ten_pow_log10 (by norm_num)
  simp [narrow, Call.answers, sherpaSSC, unpack, scaleSpectral, scaleAt, scaleEnd, withParameters, h1, h2, afterSynch]

/-- C92 fails otherwise: a model that returns zero when it is evaluated first returns a positive SED after the evaluation of
another one, because that moved the first point of the shared array into its range -/
theorem C92_violated : ∃ (k : Consts) (distance : ℝ → ℝ) (before call : Call) (first after other : ℝ), k.Pos ∧
    session k distance gammaEToIntegrate [call] = [[some (some first)]] ∧
    session k distance gammaEToIntegrate [before, call] = [[some (some other)], [some (some after)]] ∧
    first = 0 ∧ 0 < after := by
  obtain ⟨rest, e, hne, hl, hch, hge⟩ := shared_array
  set a1 : ℝ := 10 + 5 / 10 ^ 10 with ha1
  set a2 : ℝ := 10 + 12 / 10 ^ 10 with ha2
  have last : ∀ x, (x :: rest).getLast? = some (10 ^ 9) := by
    intro x
    rw [List.getLast?_cons_of_ne_nil hne]
    rwa [List.getLast?_cons_of_ne_nil hne] at hl
  have keepLast : ∀ x, correctLast (105 / 10) (x :: rest) = x :: rest := by
    intro x
    refine correctLast_id fun g hg => ?_
    rw [last, Option.some.injEq] at hg
    subst hg
    right
    norm_num
  have callFresh : (Dist.powerLaw 1 2 a2 (105 / 10)).afterCall (10 :: rest) = 10 :: rest := by
    show correctBoundary _ a2 (105 / 10) = _
    unfold correctBoundary
    rw [correctFirst_id, keepLast]
    intro g hg
    simp only [List.head?_cons, Option.some.injEq] at hg
    subst hg
    right
    rw [ha2]
    norm_num
  have callFirst : (Dist.powerLaw 1 2 a1 (105 / 10)).afterCall (10 :: rest) = a1 :: rest := by
    show correctBoundary _ a1 (105 / 10) = _
    unfold correctBoundary correctFirst
    dsimp only
    rw [if_pos (by rw [ha1]; norm_num), keepLast]
  have callFirst' : (Dist.powerLaw 1 2 a1 (105 / 10)).afterCall (a1 :: rest) = a1 :: rest := by
    show correctBoundary _ a1 (105 / 10) = _
    unfold correctBoundary
    rw [correctFirst_id, keepLast]
    intro g hg
    simp only [List.head?_cons, Option.some.injEq] at hg
    exact Or.inl hg.le
  have callSecond : (Dist.powerLaw 1 2 a2 (105 / 10)).afterCall (a1 :: rest) = a2 :: rest := by
    show correctBoundary _ a2 (105 / 10) = _
    unfold correctBoundary correctFirst
    dsimp only
    rw [if_pos (by rw [ha1, ha2]; norm_num), keepLast]
  have callSecond' : (Dist.powerLaw 1 2 a2 (105 / 10)).afterCall (a2 :: rest) = a2 :: rest := by
    show correctBoundary _ a2 (105 / 10) = _
    unfold correctBoundary
    rw [correctFirst_id, keepLast]
    intro g hg
    simp only [List.head?_cons, Option.some.injEq] at hg
    exact Or.inl hg.le
  have p1 : 0 < a1 := by rw [ha1]; norm_num
  have p2 : 0 < a2 := by rw [ha2]; norm_num
  have hafter : (narrow a1).after ⟨1, 1, 1, 1, 1, 1, 1, 1, 1, 1⟩ (fun _ => 1) (10 :: rest) = a1 :: rest := by
    unfold Call.after
    rw [narrow_spectrum p1]
    simp only [afterModel, afterSynch, Bool.false_eq_true, if_false]
    rw [callFirst, callFirst', callFirst']
  refine ⟨⟨1, 1, 1, 1, 1, 1, 1, 1, 1, 1⟩, fun _ => 1, narrow a1, narrow a2, _, _, _, by constructor <;> norm_num,
    by rw [e]; simp only [session]; rw [narrow_answers p2],
    by rw [e]; simp only [session]; rw [hafter, narrow_answers p2, narrow_answers p1], ?_, ?_⟩
  · have hz : ∀ g ∈ (10 : ℝ) :: rest, (Dist.powerLaw 1 2 a2 (105 / 10)).call g = 0 := by
      intro g hg
      show powerLawAt g 1 2 a2 (105 / 10) = 0
      unfold powerLawAt InBounds
      rw [if_neg]
      rintro ⟨h1, h2⟩
      rcases List.mem_cons.1 hg with rfl | hg
      · rw [ha2] at h1
        norm_num at h1
      · have := hge g hg
        linarith
    have h1 : Synchrotron.sedFlux ⟨1, 1, 1, 1, 1, 1, 1, 1, 1, 1⟩ trapz false 1 0 1 10 1 10 (.powerLaw 1 2 a2 (105 / 10)) (10 :: rest)
        = 0 := by
      unfold Synchrotron.sedFlux
      simp only [Bool.false_eq_true, if_false]
      rw [Synchrotron.sedThin_eq, callFresh, over_zero, mul_zero]
      intro g hg
      rw [hz g hg]
      ring
    have h2 : Compton.sscSed ⟨1, 1, 1, 1, 1, 1, 1, 1, 1, 1⟩ trapz false 1 0 1 10 1 10 (.powerLaw 1 2 a2 (105 / 10)) (10 :: rest)
        = 0 := by
      unfold Compton.sscSed
      simp only [Bool.false_eq_true, if_false]
      rw [callFresh, callFresh]
      have : trapz (Compton.nuToIntegrate.map fun nu => over trapz (10 :: rest) fun g =>
          Region.uPhSynchDiff ⟨1, 1, 1, 1, 1, 1, 1, 1, 1, 1⟩ 10 1 10 (nuToEps ⟨1, 1, 1, 1, 1, 1, 1, 1, 1, 1⟩ nu 0 10)
              (Synchrotron.sedFlux ⟨1, 1, 1, 1, 1, 1, 1, 1, 1, 1⟩ trapz false nu 0 1 10 1 10 (.powerLaw 1 2 a2 (105 / 10)) (10 :: rest))
            / nuToEps ⟨1, 1, 1, 1, 1, 1, 1, 1, 1, 1⟩ nu 0 10 ^ 2
            * (Synchrotron.volume 10 * (Dist.powerLaw 1 2 a2 (105 / 10)).call g) / g ^ 2
            * Kernels.isotropicKernel g (nuToEps ⟨1, 1, 1, 1, 1, 1, 1, 1, 1, 1⟩ nu 0 10) (nuToEps ⟨1, 1, 1, 1, 1, 1, 1, 1, 1, 1⟩ 1 0 10))
          (Compton.nuToIntegrate.map fun nu => nuToEps ⟨1, 1, 1, 1, 1, 1, 1, 1, 1, 1⟩ nu 0 10) = 0 := by
        have hm : (Compton.nuToIntegrate.map fun nu => over trapz (10 :: rest) fun g =>
          Region.uPhSynchDiff ⟨1, 1, 1, 1, 1, 1, 1, 1, 1, 1⟩ 10 1 10 (nuToEps ⟨1, 1, 1, 1, 1, 1, 1, 1, 1, 1⟩ nu 0 10)
              (Synchrotron.sedFlux ⟨1, 1, 1, 1, 1, 1, 1, 1, 1, 1⟩ trapz false nu 0 1 10 1 10 (.powerLaw 1 2 a2 (105 / 10)) (10 :: rest))
            / nuToEps ⟨1, 1, 1, 1, 1, 1, 1, 1, 1, 1⟩ nu 0 10 ^ 2
            * (Synchrotron.volume 10 * (Dist.powerLaw 1 2 a2 (105 / 10)).call g) / g ^ 2
            * Kernels.isotropicKernel g (nuToEps ⟨1, 1, 1, 1, 1, 1, 1, 1, 1, 1⟩ nu 0 10) (nuToEps ⟨1, 1, 1, 1, 1, 1, 1, 1, 1, 1⟩ 1 0 10))
            = Compton.nuToIntegrate.map fun nu => (0 : ℝ) * 1 := by
          refine List.map_congr_left fun nu _ => ?_
          rw [over_zero]
          · ring
          · intro g hg
            rw [hz g hg]
            ring
        rw [hm]
        have := homogeneous_trapz 0 (Compton.nuToIntegrate.map fun _ => 1)
          (Compton.nuToIntegrate.map fun nu => nuToEps ⟨1, 1, 1, 1, 1, 1, 1, 1, 1, 1⟩ nu 0 10)
        rw [List.map_map] at this
        rw [zero_mul] at this
        exact this
      rw [this]
      ring
    rw [callFresh, h1, h2, add_zero]
  · have hp : Synchrotron.Physical ⟨1, 1, 1, 1, 1, 1, 1, 1, 1, 1⟩ 1 0 1 10 1 10 (.powerLaw 1 2 a2 (105 / 10)) :=
      { consts := by constructor <;> norm_num
        nu := by norm_num, z := by norm_num, d_L := by norm_num, delta := by norm_num, B := by norm_num
        R_b := by norm_num, dist := by rw [ha2]; norm_num [Dist.Positive] }
    have hlt : (a2 :: rest).IsChain (· < ·) := by
      obtain ⟨x, l, rfl⟩ := List.exists_cons_of_ne_nil hne
      refine List.isChain_cons_cons.2 ⟨?_, hch⟩
      have := hge x (by simp)
      rw [ha2]
      norm_num
      linarith
    have hpos : ∀ g ∈ a2 :: rest, 0 < g := by
      intro g hg
      rcases List.mem_cons.1 hg with rfl | hg
      · exact p2
      · have := hge g hg
        linarith
    rw [callSecond]
    have h2 := ssc_nonneg (by norm_num) hp callSecond' (hlt.imp fun _ _ => le_of_lt) hpos
    have h1 : 0 < Synchrotron.sedFlux ⟨1, 1, 1, 1, 1, 1, 1, 1, 1, 1⟩ trapz false 1 0 1 10 1 10 (.powerLaw 1 2 a2 (105 / 10))
        (a1 :: rest) := by
      unfold Synchrotron.sedFlux
      simp only [Bool.false_eq_true, if_false]
      rw [Synchrotron.sedThin_eq, callSecond]
      have he := Synchrotron.nuToEps_pos hp.consts hp.nu hp.z hp.delta
      have hv : 0 < Synchrotron.volume 10 := by
        have := Real.pi_pos
        unfold Synchrotron.volume
        positivity
      have hi : 0 < over trapz (a2 :: rest) fun g => Synchrotron.volume 10 * (Dist.powerLaw 1 2 a2 (105 / 10)).call g
          * Synchrotron.power ⟨1, 1, 1, 1, 1, 1, 1, 1, 1, 1⟩ 1 (nuToEps ⟨1, 1, 1, 1, 1, 1, 1, 1, 1, 1⟩ 1 0 10) g 1 := by
        unfold over
        rw [List.map_cons]
        apply trapz_pos (by simp) hne hlt
        · refine mul_pos (mul_pos hv ?_) (Synchrotron.power_pos hp.consts hp.B he hp.consts.m_e p2)
          show 0 < powerLawAt a2 1 2 a2 (105 / 10)
          unfold powerLawAt InBounds
          rw [if_pos ⟨le_rfl, by rw [ha2]; norm_num⟩]
          positivity
        · intro v hvm
          obtain ⟨g, _, rfl⟩ := List.mem_map.1 hvm
          exact mul_nonneg (mul_nonneg hv.le (C23_nonneg hp.dist g)) (Synchrotron.power_nonneg hp.consts hp.B he.le g _)
      have := Real.pi_pos
      positivity
    linarith

/-- two models with usual parameters: the order of their evaluations does not matter -/
example (pars : ℝ → ℝ → List ℝ) (hp : ∀ a b, pars a b = [0, 2, log10 a, log10 b, 0, 10, 0, 1]) :
    session k distance gammaEToIntegrate
      [.sherpaSSC (.powerLaw 1 2 10 100) true [1, 2] (pars 100 (10 ^ 5)), .sherpaSSC (.powerLaw 1 2 10 100) false [3] (pars 1 (10 ^ 7))]
      = [(Call.sherpaSSC (.powerLaw 1 2 10 100) true [1, 2] (pars 100 (10 ^ 5))).answers k distance gammaEToIntegrate,
        (Call.sherpaSSC (.powerLaw 1 2 10 100) false [3] (pars 1 (10 ^ 7))).answers k distance gammaEToIntegrate] := by
  have e1 : (10 : ℝ) ^ log10 100 = 100 := ten_pow_log10 (by norm_num)
  have e2 : (10 : ℝ) ^ log10 (10 ^ 5) = 10 ^ 5 := ten_pow_log10 (by norm_num)
  have e3 : (10 : ℝ) ^ log10 1 = 1 := ten_pow_log10 (by norm_num)
  have e4 : (10 : ℝ) ^ log10 (10 ^ 7) = 10 ^ 7 := ten_pow_log10 (by norm_num)
  refine C92_wrappers _ ?_
  intro c hc n ssa hs
  rcases List.mem_cons.1 hc with rfl | hc
  · rw [hp] at hs
    simp [Call.spectrum, unpack, scaleSpectral, scaleAt, scaleEnd, withParameters, e1, e2] at hs
    rw [← hs.1]
    norm_num [Dist.gmin, Dist.gmax]
  · rcases List.mem_cons.1 hc with rfl | hc
    · rw [hp] at hs
      simp [Call.spectrum, unpack, scaleSpectral, scaleAt, scaleEnd, withParameters, e3, e4] at hs
      rw [← hs.1]
      norm_num [Dist.gmin, Dist.gmax]
    · simp at hc

end Verif.Fit

end
