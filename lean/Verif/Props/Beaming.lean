import Verif.Props.Redshift
import Verif.Props.RadiativeProcess

/-
C86 Doppler boosting: how the emission of the jet depends on the Doppler factor.
-/

namespace Verif

open MathUtils Spectra

/-- radiation that is isotropic in the frame of the blob: seen with the Doppler factor `δ`, the SED `F` is `δ⁴` times
the SED `F₀` seen with the Doppler factor 1, at frequencies `δ` times larger -/
def Boosted (δ : ℝ) (F F₀ : ℝ → ℝ) : Prop := ∀ nu, F nu = δ ^ 4 * F₀ (nu / δ)

theorem nuToEps_doppler (k : Consts) (nu z δ : ℝ) : nuToEps k nu z δ = nuToEps k (nu / δ) z 1 := by
  unfold nuToEps; ring

theorem nuToEpsP_doppler (k : Consts) (nu z δ : ℝ) : nuToEpsP k nu z δ = nuToEpsP k (nu / δ) z 1 := by
  unfold nuToEpsP; ring

namespace Synchrotron

variable (k : Consts) (I : List ℝ → List ℝ → ℝ) (z d_L δ B R_b : ℝ) (d : Dist)

/-- C86: synchrotron emission, with and without self-absorption -/
theorem C86_synchrotron (ssa : Bool) (gamma : List ℝ) :
    Boosted δ (fun nu => sedFlux k I ssa nu z d_L δ B R_b d gamma)
      (fun nu => sedFlux k I ssa nu z d_L 1 B R_b d gamma) := by
  intro nu
  dsimp only
  unfold sedFlux sedThin tauSSA
  rw [nuToEps_doppler]
  dsimp only
  split <;> ring

/-- C86: the approximation of monochromatic emission -/
theorem C86_synchrotron_delta : Boosted δ (fun nu => sedFluxDelta k nu z d_L δ B R_b d)
    (fun nu => sedFluxDelta k nu z d_L 1 B R_b d) := by
  intro nu
  dsimp only
  unfold sedFluxDelta
  rw [nuToEps_doppler]
  dsimp only
  ring

/-- C86: proton synchrotron emission -/
theorem C86_proton (gamma : List ℝ) : Boosted δ (fun nu => sedFluxProton k I nu z d_L δ B R_b d gamma)
    (fun nu => sedFluxProton k I nu z d_L 1 B R_b d gamma) := by
  intro nu
  dsimp only
  unfold sedFluxProton
  rw [nuToEpsP_doppler]
  dsimp only
  ring

/-- C86: the optical depth for self-absorption depends on the frequency in the frame of the blob only -/
theorem C86_self_absorption (nu : ℝ) (gamma : List ℝ) :
    tauSSA k I nu z δ B R_b d gamma = tauSSA k I (nu / δ) z 1 B R_b d gamma := by
  unfold tauSSA
  rw [nuToEps_doppler]

/-- C86: for a power law of index `p` (cutoffs apart) the monochromatic approximation grows with `δ^((5+p)/2)` at a
fixed frequency -/
theorem C86_synchrotron_power_law {k : Consts} (hk : k.Pos) {nu z d_L δ B R_b K p gmin gmax : ℝ} (hn : 0 < nu)
    (hz : 0 < 1 + z) (hδ : 0 < δ) (hB : 0 < B)
    (h1 : InBounds gmin gmax √(nuToEps k nu z 1 / epsilonB B))
    (h2 : InBounds gmin gmax √(nuToEps k nu z δ / epsilonB B)) :
    sedFluxDelta k nu z d_L δ B R_b (.powerLaw K p gmin gmax)
      = δ ^ ((5 + p) / 2) * sedFluxDelta k nu z d_L 1 B R_b (.powerLaw K p gmin gmax) := by
  have he : 0 < epsilonB B := by unfold epsilonB B_cr; positivity
  have hE : 0 < nuToEps k nu z 1 := by
    have := hk.h
    have : 0 < k.mec2 := by
      have := hk.m_e
      have := hk.c
      unfold Consts.mec2
      positivity
    unfold nuToEps
    positivity
  have hs : √(nuToEps k nu z δ / epsilonB B) = δ ^ (-(1 / 2) : ℝ) * √(nuToEps k nu z 1 / epsilonB B) := by
    have : nuToEps k nu z δ / epsilonB B = δ⁻¹ * (nuToEps k nu z 1 / epsilonB B) := by unfold nuToEps; ring
    rw [this, Real.sqrt_mul (by positivity), Real.sqrt_inv, Real.rpow_neg hδ.le, Real.sqrt_eq_rpow δ]
  unfold sedFluxDelta
  dsimp only
  unfold Dist.call powerLawAt
  dsimp only
  rw [if_pos h1, if_pos h2, hs]
  set x := √(nuToEps k nu z 1 / epsilonB B) with hx
  have hx0 : 0 < x := Real.sqrt_pos.2 (by positivity)
  have hpow : (δ ^ (-(1 / 2) : ℝ)) ^ (-p) = δ ^ (p / 2) := by
    rw [← Real.rpow_mul hδ.le]; congr 1; ring
  have hcube : (δ ^ (-(1 / 2) : ℝ)) ^ 3 = δ ^ (-(3 / 2) : ℝ) := by
    rw [← Real.rpow_natCast, ← Real.rpow_mul hδ.le]; congr 1; norm_num
  rw [Real.mul_rpow (by positivity) hx0.le, mul_pow, hpow, hcube]
  have hd : δ ^ ((5 + p) / 2) = δ ^ 4 * δ ^ (-(3 / 2) : ℝ) * δ ^ (p / 2) := by
    rw [← Real.rpow_natCast, ← Real.rpow_add hδ, ← Real.rpow_add hδ]
    congr 1
    push_cast
    ring
  rw [hd]
  ring

end Synchrotron

namespace Compton

open Region Targets Kernels

/-- C86: synchrotron self-Compton emission.  The grid of target frequencies the code uses is fixed in the observer's
frame, so it is the grid that is shifted with the frequency. -/
theorem sscSedOn_boost (grid : List ℝ) (k : Consts) (I : List ℝ → List ℝ → ℝ) (ssa : Bool) (nu z d_L : ℝ) {δ : ℝ}
    (hδ : δ ≠ 0) (B R_b : ℝ) (d : Dist) (gamma : List ℝ) :
    sscSedOn grid k I ssa nu z d_L δ B R_b d gamma
      = δ ^ 4 * sscSedOn (grid.map (· / δ)) k I ssa (nu / δ) z d_L 1 B R_b d gamma := by
  have hu : ∀ nu, uPhSynchDiff k R_b d_L δ (nuToEps k nu z δ) (Synchrotron.sedFlux k I ssa nu z d_L δ B R_b d gamma)
      = uPhSynchDiff k R_b d_L 1 (nuToEps k (nu / δ) z 1)
        (Synchrotron.sedFlux k I ssa (nu / δ) z d_L 1 B R_b d gamma) := by
    intro nu
    have h := Synchrotron.C86_synchrotron k I z d_L δ B R_b d ssa gamma nu
    dsimp only at h
    rw [h, nuToEps_doppler k nu z δ]
    unfold uPhSynchDiff
    dsimp only
    congr 1
    have : δ ^ 4 ≠ 0 := pow_ne_zero _ hδ
    rw [show 3 * d_L ^ 2 * (δ ^ 4 * Synchrotron.sedFlux k I ssa (nu / δ) z d_L 1 B R_b d gamma)
        = δ ^ 4 * (3 * d_L ^ 2 * Synchrotron.sedFlux k I ssa (nu / δ) z d_L 1 B R_b d gamma) by ring,
      show k.c * R_b ^ 2 * δ ^ 4 * nuToEps k (nu / δ) z 1
        = δ ^ 4 * (k.c * R_b ^ 2 * 1 ^ 4 * nuToEps k (nu / δ) z 1) by ring, mul_div_mul_left _ _ this]
  unfold sscSedOn
  dsimp only
  simp only [hu, List.map_map, Function.comp_def]
  simp only [nuToEps_doppler k _ z δ]
  ring

theorem C86_self_compton (k : Consts) (I : List ℝ → List ℝ → ℝ) (ssa : Bool) (nu z d_L : ℝ) {δ : ℝ}
    (hδ : δ ≠ 0) (B R_b : ℝ) (d : Dist) (gamma : List ℝ) :
    sscSed k I ssa nu z d_L δ B R_b d gamma
      = δ ^ 4 * sscSedOn (nuToIntegrate.map (· / δ)) k I ssa (nu / δ) z d_L 1 B R_b d gamma := by
  rw [sscSed_eq_on, sscSedOn_boost _ _ _ _ _ _ _ hδ]

end Compton

/-! ### external Compton: the boosted electrons -/

namespace Spectra.Dist

/-- the distribution with every Lorentz factor multiplied by `δ`: `n(γ/δ)` as a spectrum of the same kind -/
noncomputable def stretched (δ : ℝ) : Dist → Dist
  | powerLaw k p a b => powerLaw (k * δ ^ p) p (δ * a) (δ * b)
  | broken k p1 p2 gb a b => broken k p1 p2 (δ * gb) (δ * a) (δ * b)
  | logParabola k p q g0 a b => logParabola k p q (δ * g0) (δ * a) (δ * b)
  | ecpl k p gc a b => ecpl (k * δ ^ p) p (δ * gc) (δ * a) (δ * b)
  | ecbpl k p1 p2 gc gb a b => ecbpl k p1 p2 (δ * gc) (δ * gb) (δ * a) (δ * b)
  | interp f df norm a b => interp (fun x => f (x - log10 δ)) (fun x => df (x - log10 δ)) norm (δ * a) (δ * b)
  | empty a b => empty (δ * a) (δ * b)

theorem inBounds_stretch {δ a b g : ℝ} (hδ : 0 < δ) : InBounds (δ * a) (δ * b) g ↔ InBounds a b (g / δ) := by
  unfold InBounds
  rw [le_div_iff₀ hδ, div_le_iff₀ hδ, mul_comm a, mul_comm b]

open Classical in
theorem stretched_call (d : Dist) {δ : ℝ} (hδ : 0 < δ) (hd : 0 < d.gmin) (g : ℝ) :
    (d.stretched δ).call g = d.call (g / δ) := by
  have hI : ∀ a b (x y : ℝ), (if InBounds (δ * a) (δ * b) g then x else y) = if InBounds a b (g / δ) then x else y := by
    intro a b x y
    by_cases h : InBounds a b (g / δ)
    · rw [if_pos h, if_pos ((inBounds_stretch hδ).2 h)]
    · rw [if_neg h, if_neg fun h' => h ((inBounds_stretch hδ).1 h')]
  have hb : ∀ gb, (g ≤ δ * gb) = (g / δ ≤ gb) := fun gb => by rw [div_le_iff₀ hδ, mul_comm gb]
  have hq : ∀ x, g / (δ * x) = g / δ / x := fun x => (div_div g δ x).symm
  have hpow : ∀ p : ℝ, 0 < g → δ ^ p * g ^ (-p) = (g / δ) ^ (-p) := by
    intro p hg
    rw [Real.div_rpow hg.le hδ.le, Real.rpow_neg hδ.le, div_eq_mul_inv, inv_inv, mul_comm]
  have hpos : ∀ {a b}, 0 < a → InBounds a b (g / δ) → 0 < g := by
    intro a b ha h
    have := lt_of_lt_of_le ha h.1
    rw [lt_div_iff₀ hδ, zero_mul] at this
    exact this
  cases d with
  | powerLaw k p a b =>
    simp only [stretched, call, powerLawAt, hI]
    split
    · next h => rw [mul_assoc, hpow p (hpos hd h)]
    · rfl
  | broken k p1 p2 gb a b =>
    simp only [stretched, call, brokenAt, hI, hb, hq]
  | logParabola k p q g0 a b =>
    simp only [stretched, call, logParabolaAt, hI, hq]
  | ecpl k p gc a b =>
    simp only [stretched, call, ecplAt, hI]
    split
    · next h =>
      rw [mul_assoc k, hpow p (hpos hd h), neg_div, neg_div, hq]
    · rfl
  | ecbpl k p1 p2 gc gb a b =>
    simp only [stretched, call, ecbplAt, hI, hb, hq, neg_div]
  | interp f df norm a b =>
    simp only [stretched, call, interpAt, hI]
    split
    · next h =>
      have hg := hpos hd h
      have : log10 (g / δ) = log10 g - log10 δ := by
        unfold log10
        rw [Real.log_div hg.ne' hδ.ne', sub_div]
      rw [this]
    · rfl
  | empty a b => rfl

theorem correctBoundary_stretch {δ : ℝ} (hδ : 0 < δ) (a b : ℝ) (gamma : List ℝ) :
    correctBoundary (gamma.map (· / δ)) a b = (correctBoundary gamma (δ * a) (δ * b)).map (· / δ) := by
  have first : correctFirst a (gamma.map (· / δ)) = (correctFirst (δ * a) gamma).map (· / δ) := by
    cases gamma with
    | nil => rfl
    | cons g l =>
      have h1 : (a > g / δ) = (δ * a > g) := by
        simp only [gt_iff_lt, eq_iff_iff]
        rw [div_lt_iff₀ hδ, mul_comm]
      have h2 : (a - g / δ) / (g / δ) = (δ * a - g) / g := by
        rw [show a - g / δ = (δ * a - g) / δ by field_simp, div_div_div_cancel_right₀ hδ.ne']
      unfold correctFirst
      simp only [List.map_cons, h1, h2]
      split
      · simp only [List.map_cons]
        rw [mul_div_cancel_left₀ _ hδ.ne']
      · rfl
  have last : ∀ l : List ℝ, correctLast b (l.map (· / δ)) = (correctLast (δ * b) l).map (· / δ) := by
    intro l
    cases l with
    | nil => rfl
    | cons g l =>
      have e : ((g :: l).map (· / δ)).getLast (by simp) = (g :: l).getLast (by simp) / δ := by
        rw [List.getLast_map]
      have h1 : ∀ x, (x / δ > b) = (x > δ * b) := by
        intro x
        simp only [gt_iff_lt, eq_iff_iff]
        rw [lt_div_iff₀ hδ, mul_comm]
      have h2 : ∀ x, (x / δ - b) / b = (x - δ * b) / (δ * b) := by
        intro x
        rw [show x / δ - b = (x - δ * b) / δ by field_simp, div_div]
      unfold correctLast
      simp only [List.map_cons] at e ⊢
      simp only [e, h1, h2]
      split
      · rw [← List.map_cons (f := fun x => x / δ), ← List.map_dropLast, List.map_append, List.map_singleton,
          mul_div_cancel_left₀ _ hδ.ne']
      · rfl
  unfold correctBoundary
  rw [first, last]

theorem stretched_evaluate (d : Dist) {δ : ℝ} (hδ : 0 < δ) (hd : 0 < d.gmin) (gamma : List ℝ) :
    (d.evaluate (gamma.map (· / δ))).2 = ((d.stretched δ).evaluate gamma).2 := by
  have h : d.afterCall (gamma.map (· / δ)) = ((d.stretched δ).afterCall gamma).map (· / δ) := by
    cases d <;> first | exact correctBoundary_stretch hδ _ _ _ | rfl
  unfold evaluate
  dsimp only
  rw [h, List.map_map]
  exact List.map_congr_left fun g _ => (stretched_call d hδ hd g).symm

end Spectra.Dist

namespace Compton

open Region Targets Kernels

theorem boostedN_stretched (d : Dist) {δ : ℝ} (hδ : 0 < δ) (hd : 0 < d.gmin) (R_b : ℝ) (gamma : List ℝ) :
    boostedN d R_b δ gamma = boostedN (d.stretched δ) R_b 1 gamma := by
  have h1 : gamma.map (· / (1 : ℝ)) = gamma := by simp
  unfold boostedN
  rw [Dist.stretched_evaluate d hδ hd, h1]

/-- C86: external Compton emission, on any target: seen under a fixed angle with the Doppler factor `δ` it is `δ³` times
the emission of a blob with the Doppler factor 1 whose electrons have `δ` times the Lorentz factor. -/
theorem C86_external (k : Consts) (I : List ℝ → List ℝ → ℝ) (d : Dist) {δ : ℝ} (hδ : 0 < δ) (hd : 0 < d.gmin)
    (nu z d_L mu_s R_b : ℝ) (gamma mu phi : List ℝ) :
    (∀ epsilon_0 u_0, isoMono k I nu z d_L δ mu_s R_b epsilon_0 u_0 d gamma mu phi
      = δ ^ 3 * isoMono k I nu z d_L 1 mu_s R_b epsilon_0 u_0 (d.stretched δ) gamma mu phi) ∧
    (∀ epsilon_0 L_0 r, psBehindJet k I nu z d_L δ mu_s R_b epsilon_0 L_0 r d gamma
      = δ ^ 3 * psBehindJet k I nu z d_L 1 mu_s R_b epsilon_0 L_0 r (d.stretched δ) gamma) ∧
    (∀ M_BH L_disk eta R_in R_out r n, ssDisk k I nu z d_L δ mu_s R_b M_BH L_disk eta R_in R_out r d gamma n phi
      = δ ^ 3 * ssDisk k I nu z d_L 1 mu_s R_b M_BH L_disk eta R_in R_out r (d.stretched δ) gamma n phi) ∧
    (∀ L_disk xi epsilon R_line r, blr k I nu z d_L δ mu_s R_b L_disk xi epsilon R_line r d gamma mu phi
      = δ ^ 3 * blr k I nu z d_L 1 mu_s R_b L_disk xi epsilon R_line r (d.stretched δ) gamma mu phi) ∧
    (∀ L_disk xi epsilon R_dt r, dt k I nu z d_L δ mu_s R_b L_disk xi epsilon R_dt r d gamma phi
      = δ ^ 3 * dt k I nu z d_L 1 mu_s R_b L_disk xi epsilon R_dt r (d.stretched δ) gamma phi) := by
  refine ⟨?_, ?_, ?_, ?_, ?_⟩
  all_goals
    intros
    simp only [isoMono, psBehindJet, ssDisk, blr, dt, boostedN_stretched d hδ hd]
    ring

/-- C86: for a power law of index `p` the external Compton emission at a fixed frequency grows with `δ^(3+p)`, up to the
shift of the two cutoffs. -/
theorem C86_external_power_law (k : Consts) {I : List ℝ → List ℝ → ℝ} (hI : HomogeneousIntegrator I) {K p a b δ : ℝ}
    (hδ : 0 < δ) (ha : 0 < a) (nu z d_L mu_s R_b : ℝ) (gamma mu phi : List ℝ) :
    (∀ epsilon_0 u_0, isoMono k I nu z d_L δ mu_s R_b epsilon_0 u_0 (.powerLaw K p a b) gamma mu phi
      = δ ^ (3 + p) * isoMono k I nu z d_L 1 mu_s R_b epsilon_0 u_0 (.powerLaw K p (δ * a) (δ * b)) gamma mu phi) ∧
    (∀ epsilon_0 L_0 r, psBehindJet k I nu z d_L δ mu_s R_b epsilon_0 L_0 r (.powerLaw K p a b) gamma
      = δ ^ (3 + p) * psBehindJet k I nu z d_L 1 mu_s R_b epsilon_0 L_0 r (.powerLaw K p (δ * a) (δ * b)) gamma) ∧
    (∀ M_BH L_disk eta R_in R_out r n,
      ssDisk k I nu z d_L δ mu_s R_b M_BH L_disk eta R_in R_out r (.powerLaw K p a b) gamma n phi
      = δ ^ (3 + p) * ssDisk k I nu z d_L 1 mu_s R_b M_BH L_disk eta R_in R_out r (.powerLaw K p (δ * a) (δ * b)) gamma n
          phi) ∧
    (∀ L_disk xi epsilon R_line r,
      blr k I nu z d_L δ mu_s R_b L_disk xi epsilon R_line r (.powerLaw K p a b) gamma mu phi
      = δ ^ (3 + p) * blr k I nu z d_L 1 mu_s R_b L_disk xi epsilon R_line r (.powerLaw K p (δ * a) (δ * b)) gamma mu
          phi) ∧
    (∀ L_disk xi epsilon R_dt r, dt k I nu z d_L δ mu_s R_b L_disk xi epsilon R_dt r (.powerLaw K p a b) gamma phi
      = δ ^ (3 + p) * dt k I nu z d_L 1 mu_s R_b L_disk xi epsilon R_dt r (.powerLaw K p (δ * a) (δ * b)) gamma phi) := by
  have hs : (Dist.powerLaw K p a b).stretched δ = (Dist.powerLaw K p (δ * a) (δ * b)).scale (δ ^ p) := by
    show Dist.powerLaw (K * δ ^ p) p (δ * a) (δ * b) = Dist.powerLaw (δ ^ p * K) p (δ * a) (δ * b)
    rw [mul_comm]
  have hp : δ ^ (3 + p) = δ ^ 3 * δ ^ p := by
    rw [Real.rpow_add hδ]
    norm_cast
  obtain ⟨h1, h2, h3, h4, h5⟩ := C86_external k I (.powerLaw K p a b) hδ ha nu z d_L mu_s R_b gamma mu phi
  rw [hs] at h1 h2 h3 h4 h5
  rw [hp]
  refine ⟨fun e u => ?_, fun e L r => ?_, fun M L η ri ro r n => ?_, fun L x e R r => ?_, fun L x e R r => ?_⟩
  · rw [h1, mul_assoc]
    congr 1
    unfold isoMono
    simp only [boostedN_scale]
    rw [mul_left_comm]
    congr 1
    rw [← over_scale homogeneous_trapz]
    refine over_congr fun p _ => ?_
    rw [← over_scale homogeneous_trapz]
    exact over_congr fun m _ => fold_scale hI _ _ _ fun n g => by ring
  · rw [h2, mul_assoc]
    congr 1
    unfold psBehindJet
    simp only [boostedN_scale]
    rw [mul_left_comm]
    congr 1
    exact fold_scale hI _ _ _ fun n g => by ring
  · rw [h3, mul_assoc]
    congr 1
    unfold ssDisk
    simp only [boostedN_scale]
    rw [mul_left_comm]
    congr 1
    rw [← over_scale homogeneous_trapz]
    refine over_congr fun p _ => ?_
    rw [← over_scale homogeneous_trapz]
    exact over_congr fun m _ => fold_scale hI _ _ _ fun n g => by ring
  · rw [h4, mul_assoc]
    congr 1
    unfold blr
    simp only [boostedN_scale]
    rw [mul_left_comm]
    congr 1
    rw [← over_scale homogeneous_trapz]
    refine over_congr fun p _ => ?_
    rw [← over_scale homogeneous_trapz]
    exact over_congr fun m _ => fold_scale hI _ _ _ fun n g => by ring
  · rw [h5, mul_assoc]
    congr 1
    unfold dt
    simp only [boostedN_scale]
    rw [mul_left_comm]
    congr 1
    rw [← over_scale homogeneous_trapz]
    exact over_congr fun p _ => fold_scale hI _ _ _ fun n g => by ring

end Compton

/-! ### fluxes in a band and peaks of a boosted SED -/

namespace RadiativeProcess

theorem nuLogspace_boost {a b δ : ℝ} (ha : 0 < a) (hb : 0 < b) (hδ : 0 < δ) (n : ℕ) :
    nuLogspace (δ * a) (δ * b) n = (nuLogspace a b n).map (· * δ) := by
  have hl : ∀ x, 0 < x → log10 (δ * x) = log10 δ + log10 x := by
    intro x hx
    unfold log10
    rw [Real.log_mul hδ.ne' hx.ne', add_div]
  have h10 : (10 : ℝ) ^ log10 δ = δ := by
    unfold log10
    rw [Real.rpow_def_of_pos (by norm_num), mul_div_cancel₀ _ (Real.log_pos (by norm_num)).ne', Real.exp_log hδ]
  unfold nuLogspace logspace linspace
  rw [hl a ha, hl b hb, List.map_map, List.map_map, List.map_map]
  refine List.map_congr_left fun i _ => ?_
  simp only [Function.comp_def]
  rw [show log10 δ + log10 a + (i : ℝ) * ((log10 δ + log10 b - (log10 δ + log10 a)) / ((n : ℝ) - 1))
    = (log10 a + (i : ℝ) * ((log10 b - log10 a) / ((n : ℝ) - 1))) + log10 δ by ring, Real.rpow_add (by norm_num), h10]

/-- C86: the energy flux in a band grows with `δ⁴`, the band being shifted -/
theorem C86_energy_flux {δ : ℝ} (hδ : 0 < δ) {F F₀ : ℝ → ℝ} (h : Boosted δ F F₀) {a b : ℝ} (ha : 0 < a) (hb : 0 < b)
    (n : ℕ) : energyFluxIntegral F (δ * a) (δ * b) n = δ ^ 4 * energyFluxIntegral F₀ a b n := by
  unfold energyFluxIntegral
  dsimp only
  rw [nuLogspace_boost ha hb hδ, Targets.trapz_stretch δ (fun nu => F nu / nu)]
  have e : ∀ x, F (x * δ) / (x * δ) = δ ^ 3 * (F₀ x / x) := by
    intro x
    rw [h (x * δ), mul_div_cancel_right₀ _ hδ.ne']
    have := hδ.ne'
    rw [show δ ^ 4 * F₀ x = δ * (δ ^ 3 * F₀ x) by ring, mul_comm x δ, mul_div_mul_left _ _ this, mul_div_assoc]
  simp only [e]
  have hs := over_scale homogeneous_trapz (nuLogspace a b n) (fun x => F₀ x / x) (δ ^ 3)
  unfold over at hs
  rw [hs]
  ring

/-- C86: the photon flux in a band grows with `δ³` -/
theorem C86_photon_flux (k : Consts) {δ : ℝ} (hδ : 0 < δ) {F F₀ : ℝ → ℝ} (h : Boosted δ F F₀) {a b : ℝ} (ha : 0 < a)
    (hb : 0 < b) (n : ℕ) : fluxIntegral k F (δ * a) (δ * b) n = δ ^ 3 * fluxIntegral k F₀ a b n := by
  unfold fluxIntegral diffEnergyFlux
  dsimp only
  rw [nuLogspace_boost ha hb hδ]
  have e : ∀ x, F (x * δ) / (k.h * (x * δ)) ^ 2 = δ ^ 2 * (F₀ x / (k.h * x) ^ 2) := by
    intro x
    rw [h (x * δ), mul_div_cancel_right₀ _ hδ.ne', show (k.h * (x * δ)) ^ 2 = δ ^ 2 * (k.h * x) ^ 2 by ring,
      show δ ^ 4 * F₀ x = δ ^ 2 * (δ ^ 2 * F₀ x) by ring, mul_div_mul_left _ _ (pow_ne_zero 2 hδ.ne'), mul_div_assoc]
  rw [List.map_map, List.map_map]
  simp only [Function.comp_def, e]
  generalize nuLogspace a b n = l
  induction l with
  | nil => simp [trapz]
  | cons x l ih =>
    cases l with
    | nil => simp [trapz]
    | cons y l =>
      simp only [List.map_cons, trapz] at ih ⊢
      rw [ih]
      ring

theorem argmaxFrom_mul {c : ℝ} (hc : 0 < c) (l : List ℝ) (i : ℕ) (best : ℝ) (idx : ℕ) :
    argmaxFrom i (c * best) idx (l.map (c * ·)) = argmaxFrom i best idx l := by
  induction l generalizing i best idx with
  | nil => rfl
  | cons x l ih =>
    simp only [List.map_cons, argmaxFrom]
    by_cases h : best < x
    · rw [if_pos h, if_pos ((mul_lt_mul_iff_right₀ hc).2 h), ih]
    · rw [if_neg h, if_neg fun h' => h ((mul_lt_mul_iff_right₀ hc).1 h'), ih]

theorem boosted_values {δ : ℝ} (hδ : 0 < δ) {F F₀ : ℝ → ℝ} (h : Boosted δ F F₀) (nu : List ℝ) :
    (nu.map (δ * ·)).map F = (nu.map F₀).map (δ ^ 4 * ·) := by
  rw [List.map_map, List.map_map]
  refine List.map_congr_left fun x _ => ?_
  simp only [Function.comp_def]
  rw [h, mul_div_cancel_left₀ _ hδ.ne']

/-- C86: the peak of the SED is `δ⁴` times higher -/
theorem C86_peak_flux {δ : ℝ} (hδ : 0 < δ) {F F₀ : ℝ → ℝ} (h : Boosted δ F F₀) (nu : List ℝ) :
    sedPeakFlux F (nu.map (δ * ·)) = (sedPeakFlux F₀ nu).map (δ ^ 4 * ·) := by
  by_cases hn : nu = []
  · subst hn; rfl
  have hc : 0 < δ ^ 4 := by positivity
  obtain ⟨f, -, h1, -⟩ := C62_peak F₀ hn
  unfold sedPeakFlux at h1 ⊢
  rw [boosted_values hδ h, h1, Option.map_some, List.max?_eq_some_iff]
  rw [List.max?_eq_some_iff] at h1
  refine ⟨List.mem_map_of_mem h1.1, ?_⟩
  intro y hy
  obtain ⟨x, hx, rfl⟩ := List.mem_map.1 hy
  exact mul_le_mul_of_nonneg_left (h1.2 x hx) hc.le

/-- C86: the peak of the SED is at `δ` times the frequency -/
theorem C86_peak_nu {δ : ℝ} (hδ : 0 < δ) {F F₀ : ℝ → ℝ} (h : Boosted δ F F₀) (nu : List ℝ) :
    sedPeakNu F (nu.map (δ * ·)) = (sedPeakNu F₀ nu).map (δ * ·) := by
  have hm : argmax ((nu.map F₀).map (δ ^ 4 * ·)) = argmax (nu.map F₀) := by
    cases nu with
    | nil => rfl
    | cons x l =>
      simp only [List.map_cons, argmax]
      rw [argmaxFrom_mul (by positivity)]
  unfold sedPeakNu
  rw [boosted_values hδ h, hm]
  cases argmax (nu.map F₀) with
  | none => rfl
  | some i => simp

end RadiativeProcess

end Verif

/-! ### Cases meeting the hypotheses -/

namespace Verif

/-- a source ten times as fast as the eye sees it at rest: ten thousand times the flux at ten times the frequency -/
example (ssa : Bool) :
    Synchrotron.sedFlux ⟨1, 1, 1, 1, 1, 1, 1, 1, 1, 1⟩ MathUtils.trapz ssa 1 0 1 10 1 1 (.powerLaw 1 2 10 1000)
        Synchrotron.demoBlob.gamma_e
      = 10 ^ 4 * Synchrotron.sedFlux ⟨1, 1, 1, 1, 1, 1, 1, 1, 1, 1⟩ MathUtils.trapz ssa (1 / 10) 0 1 1 1 1
          (.powerLaw 1 2 10 1000) Synchrotron.demoBlob.gamma_e :=
  Synchrotron.C86_synchrotron _ _ _ _ _ _ _ _ ssa Synchrotron.demoBlob.gamma_e 1

/-- limits so wide that both frequencies are emitted by electrons of the power law -/
example : ∃ gmax : ℝ,
    Synchrotron.sedFluxDelta ⟨1, 1, 1, 1, 1, 1, 1, 1, 1, 1⟩ 1 0 1 10 1 1 (.powerLaw 1 3 0 gmax)
      = (10 : ℝ) ^ ((5 + 3) / 2 : ℝ)
        * Synchrotron.sedFluxDelta ⟨1, 1, 1, 1, 1, 1, 1, 1, 1, 1⟩ 1 0 1 1 1 1 (.powerLaw 1 3 0 gmax) := by
  refine ⟨max √(nuToEps ⟨1, 1, 1, 1, 1, 1, 1, 1, 1, 1⟩ 1 0 1 / Synchrotron.epsilonB 1)
    √(nuToEps ⟨1, 1, 1, 1, 1, 1, 1, 1, 1, 1⟩ 1 0 10 / Synchrotron.epsilonB 1), ?_⟩
  exact Synchrotron.C86_synchrotron_power_law (by constructor <;> norm_num) one_pos (by norm_num) (by norm_num) one_pos
    ⟨Real.sqrt_nonneg _, le_max_left _ _⟩ ⟨Real.sqrt_nonneg _, le_max_right _ _⟩

/-- external Compton on the cosmic background, p = 2: the fifth power of the Doppler factor -/
example (k : Consts) (nu z d_L mu_s R_b : ℝ) (gamma mu phi : List ℝ) (e u : ℝ) :
    Compton.isoMono k MathUtils.trapz nu z d_L 10 mu_s R_b e u (.powerLaw 1 2 10 1000) gamma mu phi
      = (10 : ℝ) ^ (3 + 2 : ℝ)
        * Compton.isoMono k MathUtils.trapz nu z d_L 1 mu_s R_b e u (.powerLaw 1 2 (10 * 10) (10 * 1000)) gamma mu phi :=
  (Compton.C86_external_power_law k homogeneous_trapz (by norm_num) (by norm_num) nu z d_L mu_s R_b gamma mu phi).1 e u

/-- the energy flux of the synchrotron radiation of a moving blob in a band moved with it -/
example (ssa : Bool) (n : ℕ) :
    RadiativeProcess.energyFluxIntegral
        (fun nu => Synchrotron.sedFlux ⟨1, 1, 1, 1, 1, 1, 1, 1, 1, 1⟩ MathUtils.trapz ssa nu 0 1 10 1 1
          (.powerLaw 1 2 10 1000) Synchrotron.demoBlob.gamma_e) (10 * 1) (10 * 2) n
      = 10 ^ 4 * RadiativeProcess.energyFluxIntegral
        (fun nu => Synchrotron.sedFlux ⟨1, 1, 1, 1, 1, 1, 1, 1, 1, 1⟩ MathUtils.trapz ssa nu 0 1 1 1 1
          (.powerLaw 1 2 10 1000) Synchrotron.demoBlob.gamma_e) 1 2 n :=
  RadiativeProcess.C86_energy_flux (by norm_num) (Synchrotron.C86_synchrotron _ _ _ _ _ _ _ _ ssa _) one_pos two_pos n

end Verif
