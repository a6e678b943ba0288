import Verif.Props.Compton
import Verif.Lemmas.TrapzLimit

/- C87: the radiation of particles that do not absorb adds up, and more particles do not give less of it. -/

namespace Verif

open MathUtils Spectra

/-! ### the integrators -/

/-- larger samples on an increasing positive grid do not give a smaller value -/
def MonotoneIntegrator (I : List ℝ → List ℝ → ℝ) : Prop :=
  ∀ (ys ys' xs : List ℝ), xs.IsChain (· ≤ ·) → (∀ x ∈ xs, 0 < x) → List.Forall₂ (· ≤ ·) ys ys' → I ys xs ≤ I ys' xs

theorem trapz_forall₂ (ys ys' xs : List ℝ) (hx : xs.IsChain (· ≤ ·)) (h : List.Forall₂ (· ≤ ·) ys ys') :
    trapz ys xs ≤ trapz ys' xs := by
  induction xs generalizing ys ys' with
  | nil => rcases h with _ | ⟨_, _ | ⟨_, _⟩⟩ <;> simp [trapz]
  | cons a xs ih =>
    rcases xs with _ | ⟨b, xs⟩
    · rcases h with _ | ⟨_, _ | ⟨_, _⟩⟩ <;> simp [trapz]
    · rcases h with _ | ⟨h1, _ | ⟨h2, h3⟩⟩
      · simp [trapz]
      · simp [trapz]
      · rw [List.isChain_cons_cons] at hx
        have := ih _ _ hx.2 (List.Forall₂.cons h2 h3)
        have hd : 0 ≤ b - a := by linarith [hx.1]
        simp only [trapz]
        nlinarith

theorem monotone_trapz : MonotoneIntegrator trapz := fun ys ys' xs hx _ h => trapz_forall₂ ys ys' xs hx h

theorem forall₂_map {α : Type} {f g : α → ℝ} {l : List α} (h : ∀ x ∈ l, f x ≤ g x) :
    List.Forall₂ (· ≤ ·) (l.map f) (l.map g) := by
  induction l with
  | nil => exact .nil
  | cons a l ih =>
    exact .cons (h a (by simp)) (ih fun x hx => h x (List.mem_cons_of_mem _ hx))

theorem over_mono {I : List ℝ → List ℝ → ℝ} (hI : MonotoneIntegrator I) {grid : List ℝ} {f g : ℝ → ℝ}
    (hc : grid.IsChain (· ≤ ·)) (hp : ∀ x ∈ grid, 0 < x) (h : ∀ x ∈ grid, f x ≤ g x) : over I grid f ≤ over I grid g :=
  hI _ _ _ hc hp (forall₂_map h)

theorem over_trapz_mono {grid : List ℝ} {f g : ℝ → ℝ} (hc : grid.IsChain (· ≤ ·)) (h : ∀ x ∈ grid, f x ≤ g x) :
    over trapz grid f ≤ over trapz grid g :=
  trapz_forall₂ _ _ _ hc (forall₂_map h)

theorem over_trapz_lin (grid : List ℝ) (f g : ℝ → ℝ) (a b : ℝ) :
    over trapz grid (fun x => a * f x + b * g x) = a * over trapz grid f + b * over trapz grid g := by
  rw [over_trapz_add, over_scale homogeneous_trapz, over_scale homogeneous_trapz]

/-- C87, the limits of the claim: `trapz_loglog` is not monotone in its left sample: the formula for the index -1 takes over in a
band of indices around it -/
theorem C87_loglog_violated : ∃ y y' : ℝ, 0 < y ∧ y < y'
    ∧ trapzLoglog [y', 1] [1, Real.exp 1] < trapzLoglog [y, 1] [1, Real.exp 1] := by
  have hf : Real.exp 2 < fmax := by
    have h1 : Real.exp 2 < 10 ^ 4 := by
      have := Real.exp_one_lt_d9
      have h2 : Real.exp 2 = Real.exp 1 * Real.exp 1 := by rw [← Real.exp_add]; norm_num
      rw [h2]
      nlinarith [Real.exp_pos 1]
    exact h1.trans_le Compton.fmax_large
  have ht : ftiny ≤ 1 := by
    unfold ftiny
    exact div_le_one_of_le₀ (one_le_pow₀ (by norm_num)) (by positivity)
  have hlog : ∀ s, 0 ≤ s → s ≤ 2 → MathUtils.log (Real.exp s) = s := by
    intro s h0 h2
    unfold MathUtils.log clip
    have h1 : 1 ≤ Real.exp s := by linarith [Real.add_one_le_exp s]
    rw [max_eq_left (ht.trans h1), min_eq_left ((Real.exp_le_exp.2 h2).trans hf.le), Real.log_exp]
  have hlog1 : MathUtils.log 1 = 0 := by
    have := hlog 0 le_rfl (by norm_num)
    rwa [Real.exp_zero] at this
  have hl1 : MathUtils.log (Real.exp 1) = 1 := hlog 1 (by norm_num) (by norm_num)
  have he1 : (1 : ℝ) ≠ Real.exp 1 := by
    have := Real.add_one_le_exp (1 : ℝ)
    intro h; rw [← h] at this; norm_num at this
  set s : ℝ := 1 / 10 ^ 10 with hs
  set s' : ℝ := 11 / 10 ^ 11 with hs'
  have v1 : trapzLoglog [Real.exp (1 + s), 1] [1, Real.exp 1] = Real.exp (1 + s) := by
    simp only [trapzLoglog, loglogVal]
    rw [hlog (1 + s) (by rw [hs]; norm_num) (by rw [hs]; norm_num), hlog1, hl1]
    have e : (1 + s - 0) / (0 - 1) + 1 = -s := by ring
    rw [e, abs_neg, abs_of_pos (by rw [hs]; norm_num)]
    have h0 := (Real.exp_pos (1 + s)).ne'
    rw [if_neg (by simp [he1]), if_neg (lt_irrefl s), div_one, hl1]
    ring
  have v2 : trapzLoglog [Real.exp (1 + s'), 1] [1, Real.exp 1] = Real.exp (1 + s') / s' * (1 - Real.exp (-s')) := by
    simp only [trapzLoglog, loglogVal]
    rw [hlog (1 + s') (by rw [hs']; norm_num) (by rw [hs']; norm_num), hlog1, hl1]
    have e0 : (1 + s' - 0) / (0 - 1) = -(1 + s') := by ring
    rw [e0]
    have e : -(1 + s') + 1 = -s' := by ring
    rw [e, abs_neg, abs_of_pos (by rw [hs']; norm_num)]
    have h0 := (Real.exp_pos (1 + s')).ne'
    rw [if_neg (by simp [he1]), if_pos (by rw [hs']; norm_num), div_one, ← Real.exp_mul, ← Real.exp_add]
    have : (1 : ℝ) + 1 * -(1 + s') = -s' := by ring
    rw [this, div_neg]
    ring
  refine ⟨Real.exp (1 + s), Real.exp (1 + s'), Real.exp_pos _, Real.exp_lt_exp.2 (by rw [hs, hs']; norm_num), ?_⟩
  rw [v1, v2]
  have hp : 0 < s' := by rw [hs']; norm_num
  have e2 : Real.exp (1 + s') / s' * (1 - Real.exp (-s')) = Real.exp 1 * ((Real.exp s' - 1) / s') := by
    rw [Real.exp_add, Real.exp_neg]
    have := (Real.exp_pos s').ne'
    field_simp
  rw [e2, Real.exp_add]
  apply mul_lt_mul_of_pos_left _ (Real.exp_pos 1)
  have h1 : Real.exp s' ≤ 1 + s' + 3 / 4 * s' ^ 2 := by
    have h := Real.exp_bound' (x := s') hp.le (by rw [hs']; norm_num) (n := 2) (by norm_num)
    simp only [Finset.sum_range_succ, Finset.sum_range_zero] at h
    norm_num at h
    linarith
  have h2 : 1 + s ≤ Real.exp s := by linarith [Real.add_one_le_exp s]
  refine lt_of_lt_of_le ?_ h2
  rw [div_lt_iff₀ hp]
  rw [hs, hs'] at *
  norm_num at *
  linarith

/-! ### distributions -/

namespace Spectra.Dist

/-- `d'` has at no energy fewer particles than `d`, between the same limits (and both overwrite the ends of an array
passed to them in the same way, as any two distributions do that are not `EmptyDistribution`) -/
structure Fewer (d d' : Dist) : Prop where
  gmin : d.gmin = d'.gmin
  gmax : d.gmax = d'.gmax
  grid : ∀ gamma, d.afterCall gamma = d'.afterCall gamma
  le : ∀ g, d.call g ≤ d'.call g

theorem Fewer.of_nonEmpty {d d' : Dist} (hd : d.NonEmpty) (hd' : d'.NonEmpty) (h1 : d.gmin = d'.gmin)
    (h2 : d.gmax = d'.gmax) (h : ∀ g, d.call g ≤ d'.call g) : Fewer d d' := by
  refine ⟨h1, h2, fun gamma => ?_, h⟩
  cases d <;> cases d' <;> simp only [NonEmpty] at hd hd' <;>
    simp only [afterCall, Dist.gmin, Dist.gmax] at h1 h2 ⊢ <;> rw [h1, h2]

/-- on the array `gamma` the particles of `d` are `a` times those of `d₁` and `b` times those of `d₂`; none of the three
overwrites the ends of the array -/
structure Mixture (a b : ℝ) (d₁ d₂ d : Dist) (gamma : List ℝ) : Prop where
  grid : d.afterCall gamma = gamma
  grid₁ : d₁.afterCall gamma = gamma
  grid₂ : d₂.afterCall gamma = gamma
  call : ∀ g ∈ gamma, d.call g = a * d₁.call g + b * d₂.call g

end Spectra.Dist

/-! ### synchrotron -/

namespace Synchrotron

open Region Spectra.Dist

variable {k : Consts} {I : List ℝ → List ℝ → ℝ} {nu z d_L δ B R_b : ℝ}

theorem sedFluxProton_eq (k : Consts) (I : List ℝ → List ℝ → ℝ) (nu z d_L δ B R_b : ℝ) (d : Dist) (gamma : List ℝ) :
    sedFluxProton k I nu z d_L δ B R_b d gamma
      = δ ^ 4 / (4 * Real.pi * d_L ^ 2) * nuToEpsP k nu z δ
        * over I (d.afterCall gamma) fun g => volume R_b * d.call g * power k B (nuToEpsP k nu z δ) g k.m_p := by
  unfold sedFluxProton Dist.evaluate over
  dsimp only
  rw [List.map_map, zipWith_mul_map]
  rfl

/-- C87: synchrotron radiation (no self-absorption) of a mixture is the mixture of the synchrotron radiations -/
theorem C87_synchrotron_sum (k : Consts) (nu z d_L δ B R_b : ℝ) {a b : ℝ} {d₁ d₂ d : Dist} {gamma : List ℝ}
    (h : Mixture a b d₁ d₂ d gamma) :
    sedFlux k trapz false nu z d_L δ B R_b d gamma
      = a * sedFlux k trapz false nu z d_L δ B R_b d₁ gamma + b * sedFlux k trapz false nu z d_L δ B R_b d₂ gamma := by
  simp only [sedFlux, Bool.false_eq_true, if_false]
  rw [sedThin_eq, sedThin_eq, sedThin_eq, h.grid, h.grid₁, h.grid₂]
  rw [over_congr (g := fun g => a * (volume R_b * d₁.call g * power k B (nuToEps k nu z δ) g k.m_e)
    + b * (volume R_b * d₂.call g * power k B (nuToEps k nu z δ) g k.m_e))
    (by intro g hg; rw [h.call g hg]; ring), over_trapz_lin]
  ring

/-- C87: the same for protons -/
theorem C87_proton_sum (k : Consts) (nu z d_L δ B R_b : ℝ) {a b : ℝ} {d₁ d₂ d : Dist} {gamma : List ℝ}
    (h : Mixture a b d₁ d₂ d gamma) :
    sedFluxProton k trapz nu z d_L δ B R_b d gamma
      = a * sedFluxProton k trapz nu z d_L δ B R_b d₁ gamma + b * sedFluxProton k trapz nu z d_L δ B R_b d₂ gamma := by
  rw [sedFluxProton_eq, sedFluxProton_eq, sedFluxProton_eq, h.grid, h.grid₁, h.grid₂]
  rw [over_congr (g := fun g => a * (volume R_b * d₁.call g * power k B (nuToEpsP k nu z δ) g k.m_p)
    + b * (volume R_b * d₂.call g * power k B (nuToEpsP k nu z δ) g k.m_p))
    (by intro g hg; rw [h.call g hg]; ring), over_trapz_lin]
  ring

/-- C87: more electrons do not give less synchrotron radiation, without self-absorption -/
theorem C87_synchrotron {d d' : Dist} (hI : MonotoneIntegrator I) (hp : Physical k nu z d_L δ B R_b d) (h : Fewer d d')
    {gamma : List ℝ} (hc : (d.afterCall gamma).IsChain (· ≤ ·)) (hg : ∀ g ∈ d.afterCall gamma, 0 < g) :
    sedFlux k I false nu z d_L δ B R_b d gamma ≤ sedFlux k I false nu z d_L δ B R_b d' gamma := by
  simp only [sedFlux, Bool.false_eq_true, if_false]
  rw [sedThin_eq, sedThin_eq, ← h.grid]
  have := hp.d_L; have := hp.delta; have := Real.pi_pos; have hR := hp.R_b
  have hε := nuToEps_pos hp.consts hp.nu hp.z hp.delta
  apply mul_le_mul_of_nonneg_left _ (by positivity)
  apply over_mono hI hc hg
  intro g _
  have h1 := power_nonneg hp.consts hp.B hε.le g k.m_e
  have h2 := h.le g
  have h3 : 0 ≤ volume R_b := by unfold volume; positivity
  gcongr

/-- C87: more protons do not give less synchrotron radiation -/
theorem C87_proton {d d' : Dist} (hI : MonotoneIntegrator I) (hp : Physical k nu z d_L δ B R_b d) (h : Fewer d d')
    {gamma : List ℝ} (hc : (d.afterCall gamma).IsChain (· ≤ ·)) (hg : ∀ g ∈ d.afterCall gamma, 0 < g) :
    sedFluxProton k I nu z d_L δ B R_b d gamma ≤ sedFluxProton k I nu z d_L δ B R_b d' gamma := by
  rw [sedFluxProton_eq, sedFluxProton_eq, ← h.grid]
  have := hp.d_L; have := hp.delta; have := Real.pi_pos; have hR := hp.R_b
  have hε : 0 ≤ nuToEpsP k nu z δ := by
    have := hp.nu; have := hp.z; have := hp.consts.h; have := hp.consts.m_p; have := hp.consts.c
    unfold nuToEpsP Consts.mpc2
    positivity
  apply mul_le_mul_of_nonneg_left _ (by positivity)
  apply over_mono hI hc hg
  intro g _
  have h1 := power_nonneg hp.consts hp.B hε g k.m_p
  have h2 := h.le g
  have h3 : 0 ≤ volume R_b := by unfold volume; positivity
  gcongr

/-- C87: the delta approximation needs no integrator -/
theorem C87_synchrotron_delta {d d' : Dist} (hp : Physical k nu z d_L δ B R_b d) (h : Fewer d d') :
    sedFluxDelta k nu z d_L δ B R_b d ≤ sedFluxDelta k nu z d_L δ B R_b d' := by
  have := hp.d_L; have := hp.delta; have := Real.pi_pos; have hR := hp.R_b; have := hp.B
  have := hp.consts.c; have := hp.consts.sigma_T
  unfold sedFluxDelta volume
  dsimp only
  have h2 := h.le √(nuToEps k nu z δ / epsilonB B)
  gcongr

theorem tauSSA_scale (hI : HomogeneousIntegrator I) (c : ℝ) (d : Dist) (gamma : List ℝ) :
    tauSSA k I nu z δ B R_b (d.scale c) gamma = c * tauSSA k I nu z δ B R_b d gamma := by
  have e : ((d.scale c).ssaIntegrand gamma).2 = (d.ssaIntegrand gamma).2.map (c * ·) := by
    unfold ssaIntegrand
    simp only [scale_afterSSA, List.map_zipWith]
    congr 1
    funext g g'
    exact scale_ssaElem c d g g'
  have e1 : ((d.scale c).ssaIntegrand gamma).1 = (d.ssaIntegrand gamma).1 := scale_afterSSA c d gamma
  unfold tauSSA
  dsimp only
  rw [e, e1, List.zipWith_map_left]
  have e2 : ∀ l : List ℝ, List.zipWith (fun a b => c * a * b) (d.ssaIntegrand gamma).2 l
      = (List.zipWith (· * ·) (d.ssaIntegrand gamma).2 l).map (c * ·) := by
    intro l
    rw [List.map_zipWith]
    congr 1
    funext a b
    ring
  rw [e2, hI]
  ring

/-- C87: the limits of the claim.  With self-absorption it fails for every blob that absorbs at all: `tau_to_attenuation`
jumps at `tau = 1e-3`, so near the density at which that depth is reached more electrons (the same distribution with a
larger normalisation) give less flux -/
theorem C87_self_absorption_violated {b : Blob} (hg : b.GoodGrid) (hn : b.n_e.NonEmpty)
    (hp : Physical k nu b.z b.d_L b.delta_D b.B b.R_b b.n_e)
    (ht : 0 < tauSSA k trapz nu b.z b.delta_D b.B b.R_b b.n_e b.gamma_e) :
    ∃ c c' : ℝ, 0 < c ∧ c < c' ∧ Fewer (b.n_e.scale c) (b.n_e.scale c')
      ∧ sedFlux k trapz true nu b.z b.d_L b.delta_D b.B b.R_b (b.n_e.scale c') b.gamma_e
        < sedFlux k trapz true nu b.z b.d_L b.delta_D b.B b.R_b (b.n_e.scale c) b.gamma_e := by
  set τ := tauSSA k trapz nu b.z b.delta_D b.B b.R_b b.n_e b.gamma_e with hτ
  have hS : 0 < sedFlux k trapz false nu b.z b.d_L b.delta_D b.B b.R_b b.n_e b.gamma_e := C51_blob_pos hg hn hp false
  have hval : ∀ c : ℝ, sedFlux k trapz true nu b.z b.d_L b.delta_D b.B b.R_b (b.n_e.scale c) b.gamma_e
      = c * sedFlux k trapz false nu b.z b.d_L b.delta_D b.B b.R_b b.n_e b.gamma_e * tauToAttenuation (c * τ) := by
    intro c
    rw [← C51_linear homogeneous_trapz c b.gamma_e]
    simp only [sedFlux, if_true, Bool.false_eq_true, if_false]
    rw [scale_afterCall, hg.afterCall, tauSSA_scale homogeneous_trapz, ← hτ]
  set c' := 1 / 1000 / τ with hc'
  have hc0 : 0 < c' := by rw [hc']; positivity
  have e' : c' * τ = 1 / 1000 := by rw [hc']; field_simp
  have ha1 := attenuation_lt_one (t := 1 / 1000) le_rfl
  have ha0 := attenuation_pos (t := 1 / 1000) le_rfl
  set A := tauToAttenuation (1 / 1000) with hA
  have hcc : c' * ((1 + A) / 2) < c' := by nlinarith
  refine ⟨c' * ((1 + A) / 2), c', by positivity, hcc, ⟨?_, ?_, ?_, ?_⟩, ?_⟩
  · rw [scale_gmin, scale_gmin]
  · rw [scale_gmax, scale_gmax]
  · intro gamma
    rw [scale_afterCall, scale_afterCall]
  · intro g
    rw [scale_call, scale_call]
    exact mul_le_mul_of_nonneg_right hcc.le (C23_nonneg hp.dist g)
  · rw [hval, hval, e', ← hA]
    have h1 : c' * ((1 + A) / 2) * τ < 1 / 1000 := by rw [← e']; exact mul_lt_mul_of_pos_right hcc ht
    have h2 : tauToAttenuation (c' * ((1 + A) / 2) * τ) = 1 := by
      unfold tauToAttenuation
      rw [if_pos h1]
    rw [h2, mul_one]
    have h3 : A < (1 + A) / 2 := by linarith
    have h4 := mul_lt_mul_of_pos_left h3 (mul_pos hc0 hS)
    linarith

end Synchrotron

/-! ### the blob -/

namespace Region.Blob

open Spectra.Dist

variable {k : Consts}

/-- C87: densities and energies add up -/
theorem C87_energetics_sum (k : Consts) {b b₁ b₂ : Blob} {x y : ℝ} (h1 : b₁.gamma_e = b.gamma_e) (h2 : b₂.gamma_e = b.gamma_e)
    (h : Mixture x y b₁.n_e b₂.n_e b.n_e b.gamma_e) :
    b.n_e_tot = x * b₁.n_e_tot + y * b₂.n_e_tot ∧ b.u_e k = x * b₁.u_e k + y * b₂.u_e k := by
  unfold n_e_tot u_e
  rw [h1, h2]
  unfold evaluate
  rw [h.grid, h.grid₁, h.grid₂]
  constructor
  · have := over_trapz_lin b.gamma_e b₁.n_e.call b₂.n_e.call x y
    rw [← over_congr (f := b.n_e.call) h.call] at this
    exact this
  · have := over_trapz_lin b.gamma_e (fun g => g * b₁.n_e.call g) (fun g => g * b₂.n_e.call g) x y
    rw [← over_congr (f := fun g => g * b.n_e.call g) (by intro g hg; rw [h.call g hg]; ring)] at this
    have e : ∀ d : Dist, List.zipWith (· * ·) b.gamma_e (b.gamma_e.map d.call) = b.gamma_e.map fun g => g * d.call g := by
      intro d
      have := zipWith_mul_map id d.call b.gamma_e
      rwa [List.map_id] at this
    unfold over at this
    rw [e, e, e, this]
    ring

/-- C87: more electrons do not give a smaller density, energy or density of synchrotron photons -/
theorem C87_energetics (hk : k.Pos) {b : Blob} {d : Dist} (hg : b.GoodGrid) (hR : 0 ≤ b.R_b) (h : Fewer b.n_e d) :
    b.n_e_tot ≤ ({ b with n_e := d } : Blob).n_e_tot ∧ b.u_e k ≤ ({ b with n_e := d } : Blob).u_e k
      ∧ b.u_ph_synch k ≤ ({ b with n_e := d } : Blob).u_ph_synch k := by
  have hge : ({ b with n_e := d } : Blob).gamma_e = b.gamma_e := by
    unfold gamma_e
    rw [h.gmin, h.gmax]
  have hU : ({ b with n_e := d } : Blob).U_B = b.U_B := rfl
  have hd : d.afterCall b.gamma_e = b.gamma_e := by rw [← h.grid, hg.afterCall]
  have e : ∀ (d : Dist), List.zipWith (· * ·) b.gamma_e (b.gamma_e.map d.call) = b.gamma_e.map fun g => g * d.call g := by
    intro d
    have := zipWith_mul_map id d.call b.gamma_e
    rwa [List.map_id] at this
  unfold n_e_tot u_e u_ph_synch
  rw [hge, hU]
  unfold evaluate
  dsimp only
  rw [hg.afterCall, hd, e, e, zipWith_mul_map, zipWith_mul_map]
  have := hk.sigma_T; have := hk.m_e; have := hk.c
  refine ⟨over_trapz_mono hg.chain fun g _ => h.le g, ?_, ?_⟩
  · unfold Consts.mec2
    apply mul_le_mul_of_nonneg_left _ (by positivity)
    apply over_trapz_mono hg.chain
    intro g hgm
    exact mul_le_mul_of_nonneg_left (h.le g) (b.gamma_e_pos g hgm).le
  · have hUB : 0 ≤ b.U_B := by
      unfold U_B
      have := Real.pi_pos
      positivity
    apply mul_le_mul_of_nonneg_left _ (by positivity)
    apply over_trapz_mono hg.chain
    intro g hgm
    exact mul_le_mul_of_nonneg_left (h.le g) (by positivity)

end Region.Blob

/-! ### inverse Compton -/

namespace Compton

open Region Targets Absorption Geometry Kernels Spectra.Dist

variable {k : Consts}

/-- C87: more electrons do not give less synchrotron self-Compton radiation (targets without self-absorption) -/
theorem C87_self_compton {b : Blob} {d : Dist} (h : BlobOK k b) (hd : Fewer b.n_e d) (nu : ℝ) :
    sscSed k trapz false nu b.z b.d_L b.delta_D b.B b.R_b b.n_e b.gamma_e
      ≤ sscSed k trapz false nu b.z b.d_L b.delta_D b.B b.R_b d b.gamma_e := by
  unfold sscSed
  dsimp only
  simp only [Bool.false_eq_true, if_false]
  simp only [← hd.grid, h.grid.afterCall]
  have := h.consts.c; have := h.consts.sigma_T; have := h.delta; have := h.d_L; have := Real.pi_pos
  have hR := h.R_b
  have hV : 0 ≤ Synchrotron.volume b.R_b := by
    unfold Synchrotron.volume
    positivity
  apply mul_le_mul_of_nonneg_left _ (by positivity)
  apply mul_le_mul_of_nonneg_left _ (by positivity)
  apply trapz_mono _ _ _ _ (epsilon_chain h)
  intro nu' hn'
  have he := Synchrotron.nuToEps_pos h.consts (logspace_pos nu' hn') h.z h.delta
  apply over_trapz_mono h.grid.chain
  intro g hg
  have hg0 := b.gamma_e_pos g hg
  have hp := h.physical (logspace_pos nu' hn')
  have hsed := Synchrotron.C87_synchrotron monotone_trapz hp hd (gamma := b.gamma_e)
    (by rw [h.grid.afterCall]; exact h.grid.chain) (by rw [h.grid.afterCall]; exact b.gamma_e_pos)
  have hs0 := Synchrotron.C51_blob_nonneg h.grid hp nonneg_trapz false
  have hn := C23_nonneg h.dist g
  have hle := hd.le g
  have hk := C40_nonneg hg0 he.le (εs := nuToEps k nu b.z b.delta_D)
  have hu : uPhSynchDiff k b.R_b b.d_L b.delta_D (nuToEps k nu' b.z b.delta_D)
        (Synchrotron.sedFlux k trapz false nu' b.z b.d_L b.delta_D b.B b.R_b b.n_e b.gamma_e)
      ≤ uPhSynchDiff k b.R_b b.d_L b.delta_D (nuToEps k nu' b.z b.delta_D)
        (Synchrotron.sedFlux k trapz false nu' b.z b.d_L b.delta_D b.B b.R_b d b.gamma_e) := by
    unfold uPhSynchDiff
    dsimp only
    gcongr
  have hu0 : 0 ≤ uPhSynchDiff k b.R_b b.d_L b.delta_D (nuToEps k nu' b.z b.delta_D)
        (Synchrotron.sedFlux k trapz false nu' b.z b.d_L b.delta_D b.B b.R_b b.n_e b.gamma_e) := by
    unfold uPhSynchDiff
    dsimp only
    positivity
  have hu1 := hu0.trans hu
  gcongr

theorem fold_mono {I : List ℝ → List ℝ → ℝ} (hI : MonotoneIntegrator I) {N N' gamma : List ℝ} {f : ℝ → ℝ → ℝ}
    (hc : gamma.IsChain (· ≤ ·)) (hg : ∀ g ∈ gamma, 0 < g) (hN : List.Forall₂ (· ≤ ·) N N')
    (hf : ∀ n n' g, n ≤ n' → 0 < g → f n g ≤ f n' g) : fold I N gamma f ≤ fold I N' gamma f := by
  apply hI _ _ _ hc hg
  clear hI hc
  induction hN generalizing gamma with
  | nil => simp
  | cons h1 _ ih =>
    rcases gamma with _ | ⟨g, gamma⟩
    · simp
    · simp only [List.zipWith_cons_cons]
      exact .cons (hf _ _ _ h1 (hg g (by simp))) (ih fun x hx => hg x (List.mem_cons_of_mem _ hx))

theorem boostedN_mono {d d' : Dist} (h : Fewer d d') {R_b : ℝ} (hR : 0 ≤ R_b) (δ : ℝ) (gamma : List ℝ) :
    List.Forall₂ (· ≤ ·) (boostedN d R_b δ gamma) (boostedN d' R_b δ gamma) := by
  unfold boostedN evaluate
  dsimp only
  rw [← h.grid, List.map_map, List.map_map]
  apply forall₂_map
  intro g _
  have hV : 0 ≤ Synchrotron.volume R_b := by
    unfold Synchrotron.volume
    have := Real.pi_pos
    positivity
  exact mul_le_mul_of_nonneg_left (h.le g) hV

/-- C87: more electrons do not give less external Compton radiation, whatever the target -/
theorem C87_external {a : EC} (h : Scattering k a) (hI : MonotoneIntegrator a.integrator) (ht : TargetFine a) {nu : ℝ}
    (hn : 0 < nu) {d : Dist} (hd : Fewer a.blob.n_e d) {x y : ℝ} (e : a.sedFlux k nu = some x)
    (e' : ({ a with blob := { a.blob with n_e := d } } : EC).sedFlux k nu = some y) : x ≤ y := by
  have hs := Synchrotron.nuToEps_pos h.consts hn h.z one_pos
  have hc : a.blob.gamma_e_external_frame.IsChain (· ≤ ·) := logspace_chain (by norm_num) h.size
  have hg : ∀ g ∈ a.blob.gamma_e_external_frame, 0 < g := logspace_pos
  have hN := boostedN_mono hd h.R_b a.blob.delta_D a.blob.gamma_e_external_frame
  have hm := h.mu_s
  have hm' : ({ a.blob with n_e := d } : Blob).mu_s = a.blob.mu_s := rfl
  have hge : ({ a.blob with n_e := d } : Blob).gamma_e_external_frame = a.blob.gamma_e_external_frame := rfl
  have := h.consts.c; have := h.consts.sigma_T; have := h.consts.G; have := h.d_L; have := h.delta
  have hp := Real.pi_pos
  unfold EC.sedFlux at e e'
  unfold TargetFine at ht
  obtain ⟨blob, target, r, mu, mu_size, phi, integrator⟩ := a
  cases target with
  | cmb t =>
    simp only [Option.some.injEq] at e e' ht
    obtain ⟨h1, h2⟩ := ht
    rw [← e, ← e', hm', hge]
    unfold isoMono
    apply mul_le_mul_of_nonneg_left _ (by positivity)
    apply over_trapz_mono h.phi
    intro p _
    apply over_trapz_mono h.mu
    intro m hmm
    apply fold_mono hI hc hg hN
    intro n n' g hn0 hg0
    have := comptonKernel_nonneg hg0 hs h2 hm (h.mu_range m hmm) (φ := p)
    gcongr
  | ps t =>
    simp only [Option.some.injEq] at e e' ht
    obtain ⟨h1, h2⟩ := ht
    rw [← e, ← e', hm', hge]
    unfold psBehindJet
    apply mul_le_mul_of_nonneg_left _ (by positivity)
    apply fold_mono hI hc hg hN
    intro n n' g hn0 hg0
    have := comptonKernel_nonneg hg0 hs h2 hm (by norm_num : (1 : ℝ) ∈ Set.Icc (-1) 1) (φ := 0)
    gcongr
  | disk t =>
    simp only [Option.some.injEq] at e e' ht
    rw [← e, ← e', hm', hge]
    have hM := ht.M_BH; have hL := ht.L_disk; have he := ht.eta; have hr := ht.r
    have g0 := toRg_pos h.consts ht.R_in hM
    have g1 : toRg k t.R_in t.M_BH < toRg k t.R_out t.M_BH := by
      unfold toRg
      apply div_lt_div_of_pos_right ht.R_out
      positivity
    have g2 := toRg_pos h.consts hr hM
    unfold ssDisk
    apply mul_le_mul_of_nonneg_left _ (by positivity)
    apply over_trapz_mono h.phi
    intro p _
    apply over_trapz_mono ((SSDisk.C49_grid g0 g1 g2 h.mu_size).1.imp fun _ _ h => h.le)
    intro m hmm
    obtain ⟨-, hm0, hm1⟩ := (SSDisk.C49_grid g0 g1 g2 h.mu_size).2.2.1 m hmm
    have hR := SSDisk.C49_in_disk g0 g1 g2 h.mu_size hmm
    have hphi : 0 ≤ SSDisk.phiDiskMu m (toRg k t.R_in t.M_BH) (toRg k r t.M_BH) := (SSDisk.C49_profile g0 hR.1).1.1
    have heps : 0 < SSDisk.epsilonMu k t.L_disk t.M_BH t.eta m (toRg k r t.M_BH) :=
      disk_eps_pos h.consts hL hM he (lt_of_lt_of_le g0 hR.1)
    apply fold_mono hI hc hg hN
    intro n n' g hn0 hg0
    dsimp only
    have := comptonKernel_nonneg hg0 hs heps hm ⟨by linarith, hm1.le⟩ (φ := p)
    have : 1 ≤ m ^ (-2 : ℤ) := by
      rw [zpow_neg, show (2 : ℤ) = ((2 : ℕ) : ℤ) from rfl, zpow_natCast]
      exact (one_le_inv₀ (by positivity)).2 (pow_le_one₀ hm0.le hm1.le)
    have : 0 ≤ m ^ (-2 : ℤ) - 1 := by linarith
    gcongr
  | blr t =>
    simp only [Option.some.injEq] at e e' ht
    obtain ⟨ht, hne⟩ := ht
    rw [← e, ← e', hm', hge]
    have hL := ht.L_disk; have hx := ht.xi_line; have he := ht.epsilon_line
    unfold blr
    apply mul_le_mul_of_nonneg_left _ (by positivity)
    apply over_trapz_mono h.phi
    intro p _
    apply over_trapz_mono h.mu
    intro m hmm
    have hmr := h.mu_range m hmm
    have hxp := shell_pos (by linarith [ht.R_line]) ht.r hne hmr.2
    apply fold_mono hI hc hg hN
    intro n n' g hn0 hg0
    dsimp only
    have := comptonKernel_nonneg hg0 hs he hm (C35_range hmr hxp.ne') (φ := p)
    gcongr
  | dt t =>
    simp only [Option.some.injEq] at e e' ht
    rw [← e, ← e', hm', hge]
    have hL := ht.L_disk; have hx := ht.xi_dt; have he := dt_eps_pos h.consts ht
    have hxp := ring_pos ht.R_dt (l := r)
    unfold dt
    apply mul_le_mul_of_nonneg_left _ (by positivity)
    apply over_trapz_mono h.phi
    intro p _
    apply fold_mono hI hc hg hN
    intro n n' g hn0 hg0
    have := comptonKernel_nonneg hg0 hs he hm (ring_angle (R := t.R_dt) (l := r)) (φ := p)
    gcongr
  | other => simp at e

theorem boostedN_uncorrected {d : Dist} {δ : ℝ} {gamma : List ℝ}
    (h : d.afterCall (gamma.map (· / δ)) = gamma.map (· / δ)) (R_b : ℝ) :
    boostedN d R_b δ gamma = gamma.map fun g => Synchrotron.volume R_b * d.call (g / δ) := by
  unfold boostedN evaluate
  dsimp only
  rw [h, List.map_map, List.map_map]
  rfl

theorem fold_mix {a b δ : ℝ} {d₁ d₂ d : Dist} {gamma : List ℝ} (h : Mixture a b d₁ d₂ d (gamma.map (· / δ))) (R_b : ℝ)
    {f : ℝ → ℝ → ℝ} (hf : ∀ n₁ n₂ g, f (a * n₁ + b * n₂) g = a * f n₁ g + b * f n₂ g) :
    fold trapz (boostedN d R_b δ gamma) gamma f
      = a * fold trapz (boostedN d₁ R_b δ gamma) gamma f + b * fold trapz (boostedN d₂ R_b δ gamma) gamma f := by
  have e : ∀ n : ℝ → ℝ, fold trapz (gamma.map n) gamma f = over trapz gamma fun g => f (n g) g := by
    intro n
    unfold fold over
    congr 1
    clear h
    induction gamma with
    | nil => rfl
    | cons g gamma ih => simp only [List.map_cons, List.zipWith_cons_cons, ih]
  rw [boostedN_uncorrected h.grid, boostedN_uncorrected h.grid₁, boostedN_uncorrected h.grid₂, e, e, e, ← over_trapz_lin]
  apply over_congr
  intro g hg
  rw [h.call _ (List.mem_map_of_mem hg), ← hf]
  congr 1
  ring

theorem over_mix {a b : ℝ} {F G H : ℝ → ℝ} (h : ∀ x, F x = a * G x + b * H x) (l : List ℝ) :
    over trapz l F = a * over trapz l G + b * over trapz l H := by
  rw [← over_trapz_lin]
  exact over_congr fun x _ => h x

/-- C87: the external Compton radiation of a mixture is the mixture of the radiations, for every target -/
theorem C87_external_sum (k : Consts) {a b δ : ℝ} {d₁ d₂ d : Dist} {gamma : List ℝ}
    (h : Mixture a b d₁ d₂ d (gamma.map (· / δ))) (nu z d_L mu_s R_b : ℝ) (mu phi : List ℝ) :
    (∀ epsilon_0 u_0, isoMono k trapz nu z d_L δ mu_s R_b epsilon_0 u_0 d gamma mu phi
      = a * isoMono k trapz nu z d_L δ mu_s R_b epsilon_0 u_0 d₁ gamma mu phi
        + b * isoMono k trapz nu z d_L δ mu_s R_b epsilon_0 u_0 d₂ gamma mu phi) ∧
    (∀ epsilon_0 L_0 r, psBehindJet k trapz nu z d_L δ mu_s R_b epsilon_0 L_0 r d gamma
      = a * psBehindJet k trapz nu z d_L δ mu_s R_b epsilon_0 L_0 r d₁ gamma
        + b * psBehindJet k trapz nu z d_L δ mu_s R_b epsilon_0 L_0 r d₂ gamma) ∧
    (∀ M_BH L_disk eta R_in R_out r n, ssDisk k trapz nu z d_L δ mu_s R_b M_BH L_disk eta R_in R_out r d gamma n phi
      = a * ssDisk k trapz nu z d_L δ mu_s R_b M_BH L_disk eta R_in R_out r d₁ gamma n phi
        + b * ssDisk k trapz nu z d_L δ mu_s R_b M_BH L_disk eta R_in R_out r d₂ gamma n phi) ∧
    (∀ L_disk xi epsilon R_line r, blr k trapz nu z d_L δ mu_s R_b L_disk xi epsilon R_line r d gamma mu phi
      = a * blr k trapz nu z d_L δ mu_s R_b L_disk xi epsilon R_line r d₁ gamma mu phi
        + b * blr k trapz nu z d_L δ mu_s R_b L_disk xi epsilon R_line r d₂ gamma mu phi) ∧
    (∀ L_disk xi epsilon R_dt r, dt k trapz nu z d_L δ mu_s R_b L_disk xi epsilon R_dt r d gamma phi
      = a * dt k trapz nu z d_L δ mu_s R_b L_disk xi epsilon R_dt r d₁ gamma phi
        + b * dt k trapz nu z d_L δ mu_s R_b L_disk xi epsilon R_dt r d₂ gamma phi) := by
  refine ⟨fun _ _ => ?_, fun _ _ _ => ?_, fun _ _ _ _ _ _ _ => ?_, fun _ _ _ _ _ => ?_, fun _ _ _ _ _ => ?_⟩
  · unfold isoMono
    dsimp only
    rw [over_mix (fun φ => over_mix (fun m => fold_mix h R_b (by intros; ring)) _) _]
    ring
  · unfold psBehindJet
    dsimp only
    rw [fold_mix h R_b (by intros; ring)]
    ring
  · unfold ssDisk
    dsimp only
    rw [over_mix (fun φ => over_mix (fun m => fold_mix h R_b (by intros; ring)) _) _]
    ring
  · unfold blr
    dsimp only
    rw [over_mix (fun φ => over_mix (fun m => fold_mix h R_b (by intros; ring)) _) _]
    ring
  · unfold dt
    dsimp only
    rw [over_mix (fun φ => fold_mix h R_b (by intros; ring)) _]
    ring

/-- C87: more electrons do not make the electrons lose energy to synchrotron self-Compton more slowly -/
theorem C87_cooling {b : Blob} {d : Dist} (h : BlobOK k b) (hd : Fewer b.n_e d) {gamma : ℝ} (hg : 0 ≤ gamma) :
    energyLossRate k b gamma ≤ energyLossRate k { b with n_e := d } gamma
      ∧ energyLossRateThomson k b gamma ≤ energyLossRateThomson k { b with n_e := d } gamma := by
  have := h.consts.sigma_T; have := h.consts.c
  have hR := h.R_b; have := h.delta; have := h.d_L
  constructor
  · unfold energyLossRate
    dsimp only
    apply mul_le_mul_of_nonneg_right _ (sq_nonneg _)
    apply mul_le_mul_of_nonneg_left _ (by positivity)
    apply trapz_mono _ _ _ _ (epsilon_chain h)
    intro nu hnu
    have he := Synchrotron.nuToEps_pos h.consts (logspace_pos nu hnu) h.z h.delta
    apply mul_le_mul_of_nonneg_left _ (C55_factor (by positivity)).1.le
    have hsed := Synchrotron.C87_synchrotron monotone_trapz (h.physical (logspace_pos nu hnu)) hd
      (gamma := gammaToIntegrate) (afterCall_chain h.grid.max_pos (by norm_num) (by norm_num) (by norm_num))
      (afterCall_pos_fixed h.grid.max_pos)
    unfold uEpsilon uPhSynchDiff
    dsimp only
    gcongr
  · unfold energyLossRateThomson
    have := (Blob.C87_energetics h.consts h.grid hR.le hd).2.2
    gcongr

end Compton

/-! ### cases -/

namespace Spectra.Dist

/-- C87: an exponential cut-off takes particles away: the cut-off power law has fewer particles than the power law with
the same normalisation and limits, and so has a cut-off broken power law -/
theorem C87_cutoff {K gc : ℝ} (hK : 0 ≤ K) (hc : 0 < gc) {a : ℝ} (ha : 0 < a) (b : ℝ) :
    (∀ p, Fewer (.ecpl K p gc a b) (.powerLaw K p a b))
      ∧ ∀ p1 p2 gb, 0 < gb → Fewer (.ecbpl K p1 p2 gc gb a b) (.broken K p1 p2 gb a b) := by
  have hexp : ∀ g, a ≤ g → Real.exp (-g / gc) ≤ 1 := by
    intro g hg
    rw [Real.exp_le_one_iff]
    exact div_nonpos_of_nonpos_of_nonneg (by linarith) hc.le
  constructor
  · intro p
    refine Fewer.of_nonEmpty trivial trivial rfl rfl fun g => ?_
    simp only [call, ecplAt, powerLawAt]
    split_ifs with hb
    · have hg : 0 < g := ha.trans_le hb.1
      exact mul_le_of_le_one_right (by positivity) (hexp g hb.1)
    · exact le_rfl
  · intro p1 p2 gb hgb
    refine Fewer.of_nonEmpty trivial trivial rfl rfl fun g => ?_
    simp only [call, ecbplAt, brokenAt]
    by_cases hb : InBounds a b g
    · rw [if_pos hb, if_pos hb]
      have hg : 0 < g := ha.trans_le hb.1
      exact mul_le_of_le_one_right (by positivity) (hexp g hb.1)
    · rw [if_neg hb, if_neg hb]

/-- C87: a larger normalisation is more particles -/
theorem C87_normalisation {d : Dist} (hd : d.Positive) {c : ℝ} (hc : 1 ≤ c) : Fewer d (d.scale c) := by
  refine ⟨(scale_gmin c d).symm, (scale_gmax c d).symm, fun gamma => (scale_afterCall c d gamma).symm, fun g => ?_⟩
  rw [scale_call]
  exact le_mul_of_one_le_left (C23_nonneg hd g) hc

/-- C87: a broken power law is made of two power laws that meet at the break, on arrays that have no point at the break
and need no correction of their ends -/
theorem C87_pieces {K p1 p2 gb a b : ℝ} (ha : 0 < a) (hgb : a < gb) (hb : gb < b) {gamma : List ℝ}
    (hg : ∀ g ∈ gamma, g ≠ gb) (h0 : NoCorrection a b gamma) (h1 : NoCorrection a gb gamma)
    (h2 : NoCorrection gb b gamma) :
    Mixture 1 1 (.powerLaw (K * gb ^ p1) p1 a gb) (.powerLaw (K * gb ^ p2) p2 gb b) (.broken K p1 p2 gb a b) gamma := by
  refine ⟨(C29_unchanged_partial (.broken K p1 p2 gb a b) h0).1,
    (C29_unchanged_partial (.powerLaw (K * gb ^ p1) p1 a gb) h1).1,
    (C29_unchanged_partial (.powerLaw (K * gb ^ p2) p2 gb b) h2).1, fun g hgm => ?_⟩
  simp only [call, brokenAt, powerLawAt]
  have hgb0 : 0 < gb := ha.trans hgb
  have hne := hg g hgm
  have hr : ∀ p : ℝ, 0 < g → K * (g / gb) ^ (-p) = K * gb ^ p * g ^ (-p) := by
    intro p hg0
    rw [Real.div_rpow hg0.le hgb0.le, Real.rpow_neg hgb0.le, div_inv_eq_mul]
    ring
  have i0 : InBounds a b g ↔ InBounds a gb g ∨ InBounds gb b g := by
    unfold InBounds
    constructor
    · rintro ⟨u, v⟩
      rcases le_total g gb with w | w
      · exact Or.inl ⟨u, w⟩
      · exact Or.inr ⟨w, v⟩
    · rintro (⟨u, v⟩ | ⟨u, v⟩)
      · exact ⟨u, by linarith⟩
      · exact ⟨by linarith, v⟩
  rcases lt_or_gt_of_ne hne with h | h
  · have i2 : ¬ InBounds gb b g := fun h' => by linarith [h'.1]
    rw [if_pos h.le, if_neg i2]
    by_cases i1 : InBounds a gb g
    · rw [if_pos (i0.2 (Or.inl i1)), if_pos i1, hr p1 (by linarith [i1.1])]
      ring
    · rw [if_neg (fun h' => (i0.1 h').elim i1 i2), if_neg i1]
      ring
  · have i1 : ¬ InBounds a gb g := fun h' => by linarith [h'.2]
    rw [if_neg (not_le.2 h), if_neg i1]
    by_cases i2 : InBounds gb b g
    · rw [if_pos (i0.2 (Or.inr i2)), if_pos i2, hr p2 (by linarith)]
      ring
    · rw [if_neg (fun h' => (i0.1 h').elim i1 i2), if_neg i2]
      ring

example : Mixture 1 1 (.powerLaw (1 * 10 ^ (2 : ℝ)) 2 1 10) (.powerLaw (1 * 10 ^ (3 : ℝ)) 3 10 100)
    (.broken 1 2 3 10 1 100) [1, 5, 20, 100] := by
  refine C87_pieces one_pos (by norm_num) (by norm_num) (by intro g hg; fin_cases hg <;> norm_num) ?_ ?_ ?_ <;>
    constructor <;> intro g hg <;> simp at hg <;> subst hg <;> norm_num

end Spectra.Dist

namespace Synchrotron

open Region

/-- a blob that absorbs: electrons in a power law falling, or rising more slowly than `γ²` -/
theorem opacity_pos {k : Consts} {nu K p a c : ℝ} {b : Blob} (hg : b.GoodGrid) (hb : b.n_e = .powerLaw K p a c)
    (hp : Physical k nu b.z b.d_L b.delta_D b.B b.R_b b.n_e) (hs : -2 < p) :
    0 < tauSSA k trapz nu b.z b.delta_D b.B b.R_b b.n_e b.gamma_e := by
  have he := nuToEps_pos hp.consts hp.nu hp.z hp.delta
  have hK : 0 < K := by have := hp.dist; rw [hb] at this; exact this.1
  have h1 : b.n_e.afterSSA b.gamma_e = b.gamma_e := by rw [hb]; rfl
  have hin : ∀ g ∈ b.gamma_e, InBounds a c g := by
    intro g hgm
    obtain ⟨mid, hmid⟩ := hg.ends
    have hpw := hg.pairwise
    rw [hmid] at hpw hgm
    have h1 := (List.pairwise_cons.1 hpw).1
    have h2 := (List.pairwise_append.1 (List.pairwise_cons.1 hpw).2).2.2
    have hmn : b.n_e.gmin = a := by rw [hb]; rfl
    have hmx : b.n_e.gmax = c := by rw [hb]; rfl
    have hlt := hg.lt
    rw [hmn, hmx] at hgm hlt
    rw [hmn] at h1
    rw [hmx] at h2
    rcases List.mem_cons.1 hgm with rfl | hgm
    · exact ⟨le_rfl, hlt.le⟩
    · rw [hmx] at h1
      refine ⟨(h1 g hgm).le, ?_⟩
      rcases List.mem_append.1 hgm with h | h
      · exact (h2 g h _ (by simp)).le
      · rw [List.mem_singleton.1 h]
  have hneg : ∀ g ∈ b.gamma_e, 0 < -(b.n_e.ssaElem g g) * power k b.B (nuToEps k nu b.z b.delta_D) g k.m_e := by
    intro g hgm
    have hg0 := b.gamma_e_pos g hgm
    have h2 := power_pos hp.consts hp.B he hp.consts.m_e hg0
    have h3 : b.n_e.ssaElem g g < 0 := by
      rw [hb]
      simp only [Dist.ssaElem, powerLawSSA]
      rw [if_pos (hin g hgm)]
      have : 0 < g ^ (-p - 1) := Real.rpow_pos_of_pos hg0 _
      have : 0 < p + 2 := by linarith
      have : 0 < K * ((p + 2) * g ^ (-p - 1)) := by positivity
      linarith
    exact mul_pos (by linarith) h2
  have hJ : 0 < over trapz b.gamma_e fun g =>
      -(b.n_e.ssaElem g g) * power k b.B (nuToEps k nu b.z b.delta_D) g k.m_e := by
    refine lt_of_le_of_ne (over_trapz_nonneg hg.chain fun g hgm => (hneg g hgm).le) fun h0 => ?_
    obtain ⟨mid, hm⟩ := hg.ends
    have hl : 2 ≤ b.gamma_e.length := by rw [hm]; simp
    have h4 := (over_trapz_eq_zero_iff (List.isChain_iff_pairwise.2 hg.pairwise) hl
      fun g hgm => (hneg g hgm).le).1 h0.symm b.n_e.gmin (by rw [hm]; simp)
    exact absurd h4 (hneg _ (by rw [hm]; simp)).ne'
  unfold tauSSA Dist.ssaIntegrand
  dsimp only
  rw [h1, List.zipWith_self, zipWith_mul_map]
  have e0 : (over trapz b.gamma_e fun g => -(b.n_e.ssaElem g g) * power k b.B (nuToEps k nu b.z b.delta_D) g k.m_e)
      = -trapz (b.gamma_e.map fun g => b.n_e.ssaElem g g * power k b.B (nuToEps k nu b.z b.delta_D) g k.m_e) b.gamma_e := by
    rw [over_congr (g := fun g => (-1) * (b.n_e.ssaElem g g * power k b.B (nuToEps k nu b.z b.delta_D) g k.m_e))
      (by intro g _; ring), over_scale homogeneous_trapz]
    unfold over
    ring
  rw [e0] at hJ
  generalize trapz _ _ = J at hJ ⊢
  generalize nuToEps k nu b.z b.delta_D = ε at he ⊢
  have hR := hp.R_b
  have h4 : 0 < 1 / (8 * Real.pi * k.m_e * ε ^ 2) * (k.lambda_c_e / k.c) ^ 3 := by
    unfold Consts.lambda_c_e
    have := hp.consts.m_e; have := hp.consts.c; have := hp.consts.h
    positivity
  have e : 2 * (-1 / (8 * Real.pi * k.m_e * ε ^ 2) * (k.lambda_c_e / k.c) ^ 3 * J) * b.R_b
      = 2 * (1 / (8 * Real.pi * k.m_e * ε ^ 2) * (k.lambda_c_e / k.c) ^ 3) * b.R_b * -J := by ring
  rw [e]
  positivity

/-- more electrons, less flux: the blob of the examples -/
example : ∃ c c' : ℝ, 0 < c ∧ c < c' ∧ (demoBlob.n_e.scale c).Fewer (demoBlob.n_e.scale c')
    ∧ sedFlux ⟨1, 1, 1, 1, 1, 1, 1, 1, 1, 1⟩ trapz true 1 0 1 10 1 1 (demoBlob.n_e.scale c') demoBlob.gamma_e
      < sedFlux ⟨1, 1, 1, 1, 1, 1, 1, 1, 1, 1⟩ trapz true 1 0 1 10 1 1 (demoBlob.n_e.scale c) demoBlob.gamma_e :=
  C87_self_absorption_violated demoBlob_good trivial demoPhysical
    (opacity_pos demoBlob_good rfl demoPhysical (by norm_num))

/-- more electrons, not less flux: taking away the cut-off of the spectrum -/
example (nu : ℝ) (hn : 0 < nu) :
    sedFlux ⟨1, 1, 1, 1, 1, 1, 1, 1, 1, 1⟩ trapz false nu 0 1 10 1 1 (.ecpl 1 2 100 10 1000) [10, 100, 1000]
      ≤ sedFlux ⟨1, 1, 1, 1, 1, 1, 1, 1, 1, 1⟩ trapz false nu 0 1 10 1 1 (.powerLaw 1 2 10 1000) [10, 100, 1000] := by
  have e : (Dist.ecpl 1 2 100 10 1000).afterCall [10, 100, 1000] = [10, 100, 1000] := by
    refine (C29_unchanged_partial (.ecpl 1 2 100 10 1000) ?_).1
    constructor <;> intro g hg <;> simp at hg <;> subst hg <;> norm_num [Dist.gmin, Dist.gmax]
  refine C87_synchrotron monotone_trapz ⟨by constructor <;> norm_num, hn, by norm_num, by norm_num, by norm_num,
    by norm_num, by norm_num, by norm_num [Dist.Positive]⟩
    ((Dist.C87_cutoff zero_le_one (by norm_num) (by norm_num) 1000).1 2) ?_ ?_
  · rw [e]; norm_num
  · rw [e]; intro g hg; fin_cases hg <;> norm_num

end Synchrotron

end Verif
