import Verif.Props.Convergence
import Verif.Props.Superposition

/-
C94 small changes of the parameters make small changes of the synchrotron SED of a blob: with the array of Lorentz factors
that follows the limits of the distribution, the SED is continuous in the frequency, the attributes of the blob and every
parameter of the distribution, limits included.
-/

namespace Verif

open MathUtils Spectra Filter Topology Set

variable {T : Type*} [TopologicalSpace T] {t₀ : T}

namespace Spectra

/-- limits of a distribution that vary continuously -/
structure LimitsVary (t₀ : T) (a b : T → ℝ) : Prop where
  low : ContinuousAt a t₀
  up : ContinuousAt b t₀
  pos : 0 < a t₀
  lt : a t₀ < b t₀

/-- a distribution of one family whose parameters vary continuously (the interpolating function stays the same) -/
inductive Varies (t₀ : T) : (T → Dist) → Prop
  | powerLaw {k p a b : T → ℝ} (l : LimitsVary t₀ a b) (hk : ContinuousAt k t₀) (hp : ContinuousAt p t₀) :
      Varies t₀ fun t => .powerLaw (k t) (p t) (a t) (b t)
  | broken {k p1 p2 gb a b : T → ℝ} (l : LimitsVary t₀ a b) (hk : ContinuousAt k t₀) (hp1 : ContinuousAt p1 t₀)
      (hp2 : ContinuousAt p2 t₀) (hgb : ContinuousAt gb t₀) (pos : 0 < gb t₀) :
      Varies t₀ fun t => .broken (k t) (p1 t) (p2 t) (gb t) (a t) (b t)
  | logParabola {k p q g0 a b : T → ℝ} (l : LimitsVary t₀ a b) (hk : ContinuousAt k t₀) (hp : ContinuousAt p t₀)
      (hq : ContinuousAt q t₀) (hg0 : ContinuousAt g0 t₀) (pos : 0 < g0 t₀) :
      Varies t₀ fun t => .logParabola (k t) (p t) (q t) (g0 t) (a t) (b t)
  | ecpl {k p gc a b : T → ℝ} (l : LimitsVary t₀ a b) (hk : ContinuousAt k t₀) (hp : ContinuousAt p t₀)
      (hgc : ContinuousAt gc t₀) (ne : gc t₀ ≠ 0) : Varies t₀ fun t => .ecpl (k t) (p t) (gc t) (a t) (b t)
  | ecbpl {k p1 p2 gc gb a b : T → ℝ} (l : LimitsVary t₀ a b) (hk : ContinuousAt k t₀) (hp1 : ContinuousAt p1 t₀)
      (hp2 : ContinuousAt p2 t₀) (hgc : ContinuousAt gc t₀) (ne : gc t₀ ≠ 0) (hgb : ContinuousAt gb t₀) (pos : 0 < gb t₀) :
      Varies t₀ fun t => .ecbpl (k t) (p1 t) (p2 t) (gc t) (gb t) (a t) (b t)
  | interp {f df : ℝ → ℝ} {norm a b : T → ℝ} (l : LimitsVary t₀ a b) (hn : ContinuousAt norm t₀) (hf : Continuous f) :
      Varies t₀ fun t => .interp f df (norm t) (a t) (b t)
  | empty {a b : T → ℝ} (l : LimitsVary t₀ a b) : Varies t₀ fun t => .empty (a t) (b t)

theorem Varies.limits {d : T → Dist} (h : Varies t₀ d) : LimitsVary t₀ (fun t => (d t).gmin) (fun t => (d t).gmax) := by
  cases h <;> assumption

theorem continuousAt_log10 {x : T → ℝ} (hx : ContinuousAt x t₀) (h0 : 0 < x t₀) : ContinuousAt (fun t => log10 (x t)) t₀ :=
  ContinuousAt.comp (f := x) (g := log10) (Dist.continuousOn_log10.continuousAt (Ioi_mem_nhds h0)) hx

theorem continuousAt_moving_break {gb p1 p2 x : T → ℝ} (hgb : ContinuousAt gb t₀) (pos : 0 < gb t₀) (hp1 : ContinuousAt p1 t₀)
    (hp2 : ContinuousAt p2 t₀) (hx : ContinuousAt x t₀) (h0 : 0 < x t₀) :
    ContinuousAt (fun t => (x t / gb t) ^ (-(if x t ≤ gb t then p1 t else p2 t))) t₀ := by
  have h : ContinuousAt (fun t => (min (x t) (gb t) / gb t) ^ (-p1 t) * (max (x t) (gb t) / gb t) ^ (-p2 t)) t₀ := by
    refine ContinuousAt.mul ?_ ?_
    · refine ContinuousAt.rpow ((hx.min hgb).div hgb pos.ne') hp1.neg (Or.inl ?_)
      have : 0 < min (x t₀) (gb t₀) := lt_min h0 pos
      positivity
    · refine ContinuousAt.rpow ((hx.max hgb).div hgb pos.ne') hp2.neg (Or.inl ?_)
      have : 0 < max (x t₀) (gb t₀) := lt_max_of_lt_right pos
      positivity
  refine h.congr ?_
  filter_upwards [hgb.eventually (lt_mem_nhds pos)] with t ht
  exact (Dist.broken_product ht (p1 t) (p2 t)).symm

/-- the density at a point that moves continuously inside the limits is continuous -/
theorem Varies.call {d : T → Dist} (h : Varies t₀ d) {x : T → ℝ} (hx : ContinuousAt x t₀) (h0 : 0 < x t₀)
    (hin : ∀ᶠ t in 𝓝 t₀, InBounds (d t).gmin (d t).gmax (x t)) : ContinuousAt (fun t => (d t).call (x t)) t₀ := by
  have hne : x t₀ ≠ 0 := h0.ne'
  cases h with
  | @powerLaw k p a b l hk hp =>
    refine ContinuousAt.congr (f := fun t => k t * x t ^ (-p t)) (hk.mul (hx.rpow hp.neg (Or.inl hne))) ?_
    filter_upwards [hin] with t ht
    exact (if_pos ht).symm
  | @broken k p1 p2 gb a b l hk hp1 hp2 hgb pos =>
    refine ContinuousAt.congr (hk.mul (continuousAt_moving_break hgb pos hp1 hp2 hx h0)) ?_
    filter_upwards [hin] with t ht
    exact (if_pos ht).symm
  | @logParabola k p q g0 a b l hk hp hq hg0 pos =>
    have hr : ContinuousAt (fun t => x t / g0 t) t₀ := hx.div hg0 pos.ne'
    have hr0 : 0 < x t₀ / g0 t₀ := div_pos h0 pos
    refine ContinuousAt.congr (f := fun t => k t * (x t / g0 t) ^ (-p t - q t * log10 (x t / g0 t))) ?_ ?_
    · exact hk.mul (hr.rpow (hp.neg.sub (hq.mul (continuousAt_log10 hr hr0))) (Or.inl hr0.ne'))
    · filter_upwards [hin] with t ht
      exact (if_pos ht).symm
  | @ecpl k p gc a b l hk hp hgc ne =>
    refine ContinuousAt.congr (f := fun t => k t * x t ^ (-p t) * Real.exp (-x t / gc t))
      ((hk.mul (hx.rpow hp.neg (Or.inl hne))).mul (hx.neg.div hgc ne).rexp) ?_
    filter_upwards [hin] with t ht
    exact (if_pos ht).symm
  | @ecbpl k p1 p2 gc gb a b l hk hp1 hp2 hgc ne hgb pos =>
    refine ContinuousAt.congr ((hk.mul (continuousAt_moving_break hgb pos hp1 hp2 hx h0)).mul (hx.neg.div hgc ne).rexp) ?_
    filter_upwards [hin] with t ht
    exact (if_pos ht).symm
  | @interp f df norm a b l hn hf =>
    refine ContinuousAt.congr (f := fun t => norm t * (10 : ℝ) ^ f (log10 (x t))) ?_ ?_
    · refine hn.mul (ContinuousAt.rpow continuousAt_const ?_ (Or.inl (by norm_num)))
      exact ContinuousAt.comp (g := f) hf.continuousAt (continuousAt_log10 hx h0)
    · filter_upwards [hin] with t ht
      show _ = interpAt f (x t) (norm t) (a t) (b t)
      unfold interpAt
      rw [if_pos (show InBounds (a t) (b t) (x t) from ht)]
  | @empty a b l => exact continuousAt_const

/-- the trapezoidal rule on abscissae and ordinates that move continuously -/
theorem continuousAt_trapz {ι : Type*} (is : List ι) {x y : ι → T → ℝ} (hx : ∀ i ∈ is, ContinuousAt (x i) t₀)
    (hy : ∀ i ∈ is, ContinuousAt (y i) t₀) :
    ContinuousAt (fun t => trapz (is.map fun i => y i t) (is.map fun i => x i t)) t₀ := by
  induction is with
  | nil => exact continuousAt_const
  | cons i is ih =>
    have ih := ih (fun j hj => hx j (List.mem_cons_of_mem _ hj)) (fun j hj => hy j (List.mem_cons_of_mem _ hj))
    cases is with
    | nil => exact continuousAt_const
    | cons j js =>
      have xi := hx i List.mem_cons_self
      have yi := hy i List.mem_cons_self
      have xj := hx j (List.mem_cons_of_mem _ List.mem_cons_self)
      have yj := hy j (List.mem_cons_of_mem _ List.mem_cons_self)
      exact (((xj.sub xi).mul (yi.add yj)).div_const 2).add ih

/-- families without a break; the derivative of the interpolating function is continuous -/
def Dist.Unbroken : Dist → Prop
  | .broken .. => False
  | .ecbpl .. => False
  | .interp _ df _ _ _ => Continuous df
  | _ => True

/-- the self-absorption integrand at a point that moves continuously inside the limits -/
theorem Varies.ssa {d : T → Dist} (h : Varies t₀ d) (hu : (d t₀).Unbroken) {x : T → ℝ} (hx : ContinuousAt x t₀)
    (h0 : 0 < x t₀) (hin : ∀ᶠ t in 𝓝 t₀, InBounds (d t).gmin (d t).gmax (x t)) :
    ContinuousAt (fun t => (d t).ssa (x t)) t₀ := by
  have hne : x t₀ ≠ 0 := h0.ne'
  have hc := h.call hx h0 hin
  cases h with
  | @powerLaw k p a b l hk hp =>
    refine ContinuousAt.congr (f := fun t => k t * (-(p t + 2) * x t ^ (-p t - 1)))
      (hk.mul ((hp.add continuousAt_const).neg.mul (hx.rpow (hp.neg.sub continuousAt_const) (Or.inl hne)))) ?_
    filter_upwards [hin] with t ht
    show _ = powerLawSSA (x t) (k t) (p t) (a t) (b t)
    unfold powerLawSSA
    rw [if_pos (show InBounds (a t) (b t) (x t) from ht)]
  | broken => exact hu.elim
  | @logParabola k p q g0 a b l hk hp hq hg0 pos =>
    have hr : ContinuousAt (fun t => x t / g0 t) t₀ := hx.div hg0 pos.ne'
    exact (((hp.add ((continuousAt_const.mul hq).mul (continuousAt_log10 hr (div_pos h0 pos)))).add
      continuousAt_const).neg.div hx hne).mul hc
  | @ecpl k p gc a b l hk hp hgc ne =>
    exact (((hp.add continuousAt_const).neg.div hx hne).add (continuousAt_const.div hgc ne)).mul hc
  | ecbpl => exact hu.elim
  | @interp f df norm a b l hn hf =>
    have hdf : ContinuousAt (fun t => df (log10 (x t))) t₀ :=
      ContinuousAt.comp (g := df) (Continuous.continuousAt hu) (continuousAt_log10 hx h0)
    exact ((hc.mul hdf).div hx hne).sub ((continuousAt_const.mul hc).div hx hne)
  | empty => exact continuousAt_const

/-- integrals over the array of Lorentz factors that follows the limits are continuous -/
theorem continuousAt_own {d : T → Dist} (h : Varies t₀ d) {n : ℕ} (hn : 2 ≤ n) {w : T → ℝ → ℝ}
    (hw : ∀ x : T → ℝ, ContinuousAt x t₀ → 0 < x t₀ → (∀ᶠ t in 𝓝 t₀, InBounds (d t).gmin (d t).gmax (x t)) →
      ContinuousAt (fun t => w t (x t)) t₀) :
    ContinuousAt (fun t => over trapz (logspace (log10 (d t).gmin) (log10 (d t).gmax) n) (w t)) t₀ := by
  have l := h.limits
  have la := continuousAt_log10 l.low l.pos
  have lb := continuousAt_log10 l.up (l.pos.trans l.lt)
  let x : ℕ → T → ℝ := fun i t =>
    (10 : ℝ) ^ (log10 (d t).gmin + (i : ℝ) * ((log10 (d t).gmax - log10 (d t).gmin) / ((n : ℝ) - 1)))
  have hgrid : ∀ t, logspace (log10 (d t).gmin) (log10 (d t).gmax) n = (List.range n).map fun i => x i t := by
    intro t
    unfold logspace linspace
    rw [List.map_map]
    rfl
  have hx : ∀ i, ContinuousAt (x i) t₀ := fun i =>
    ContinuousAt.rpow continuousAt_const (la.add (continuousAt_const.mul ((lb.sub la).div_const _)))
      (Or.inl (by norm_num))
  have hpos : ∀ i t, 0 < x i t := fun i t => by positivity
  have hin : ∀ i ∈ List.range n, ∀ᶠ t in 𝓝 t₀, InBounds (d t).gmin (d t).gmax (x i t) := by
    intro i hi
    filter_upwards [l.low.eventually (lt_mem_nhds l.pos), l.low.eventually_lt l.up l.lt] with t h1 h2
    obtain ⟨mid, hm⟩ := logspace_ends_n h1 (h1.trans h2) hn
    have hp := logspace_pairwise (a := log10 (d t).gmin) (b := log10 (d t).gmax) ?_ n hn
    · rw [hgrid t] at hm hp
      have hmem : x i t ∈ (List.range n).map fun i => x i t := List.mem_map.2 ⟨i, hi, rfl⟩
      rw [hm] at hmem hp
      have h3 := List.pairwise_cons.1 hp
      have h4 := List.pairwise_append.1 h3.2
      constructor
      · rcases List.mem_cons.1 hmem with e | hmem
        · exact e.ge
        · exact (h3.1 _ hmem).le
      · rcases List.mem_cons.1 hmem with e | hmem
        · rw [e]
          exact h2.le
        · rcases List.mem_append.1 hmem with hmem | hmem
          · exact (h4.2.2 _ hmem _ List.mem_cons_self).le
          · exact (List.mem_singleton.1 hmem).le
    · unfold log10
      exact div_lt_div_of_pos_right (Real.log_lt_log h1 h2) (Real.log_pos (by norm_num))
  have key := continuousAt_trapz (t₀ := t₀) (List.range n) (x := x) (y := fun i t => w t (x i t))
    (fun i _ => hx i) fun i hi => hw _ (hx i) (hpos i t₀) (hin i hi)
  refine key.congr (Eventually.of_forall fun t => ?_)
  unfold over
  dsimp only
  rw [hgrid t, List.map_map]
  rfl

end Spectra

namespace Synchrotron

theorem continuousAt_power {k : Consts} (hk : k.Pos) {B ε x : T → ℝ} {m : ℝ} (hm : 0 < m) (hB : ContinuousAt B t₀)
    (B0 : 0 < B t₀) (hε : ContinuousAt ε t₀) (ε0 : 0 < ε t₀) (hx : ContinuousAt x t₀) (x0 : 0 < x t₀) :
    ContinuousAt (fun t => power k (B t) (ε t) (x t) m) t₀ := by
  unfold power
  dsimp only
  have hc : ContinuousAt (fun t => calcX k (B t) (ε t) (x t) m) t₀ := by
    unfold calcX
    have := hk.e; have := hk.h
    exact (((continuousAt_const.mul hε).mul continuousAt_const).mul continuousAt_const).div
      (((continuousAt_const.mul hB).mul continuousAt_const).mul (hx.pow 2)) (by positivity)
  refine ContinuousAt.mul ((continuousAt_const.mul hB).div_const _) ?_
  exact ContinuousAt.comp (g := R) (continuousOn_R.continuousAt (Ici_mem_nhds (calcX_pos hk B0 ε0 hm x0))) hc

variable {k : Consts} {nu z d_L δ B R_b : T → ℝ} {d : T → Dist}

theorem continuousAt_eps (hnu : ContinuousAt nu t₀) (hz : ContinuousAt z t₀) (hδ : ContinuousAt δ t₀) (δ0 : 0 < δ t₀) :
    ContinuousAt (fun t => nuToEps k (nu t) (z t) (δ t)) t₀ := by
  unfold nuToEps
  exact ((continuousAt_const.add hz).mul ((continuousAt_const.mul hnu).div_const _)).div hδ δ0.ne'

theorem eps_proton_pos {k : Consts} (hk : k.Pos) {nu z δ : ℝ} (hn : 0 < nu) (hz : 0 ≤ z) (hδ : 0 < δ) :
    0 < nuToEpsP k nu z δ := by
  have := hk.h; have := hk.c; have := hk.m_p
  unfold nuToEpsP Consts.mpc2
  positivity

/-- what the SED of a blob depends on varies continuously around a physical value -/
structure Setting (k : Consts) (t₀ : T) (nu z d_L δ B R_b : T → ℝ) (d : T → Dist) : Prop where
  consts : k.Pos
  vary_nu : ContinuousAt nu t₀
  nu_pos : 0 < nu t₀
  vary_z : ContinuousAt z t₀
  z_nonneg : 0 ≤ z t₀
  vary_d_L : ContinuousAt d_L t₀
  d_L_pos : 0 < d_L t₀
  vary_delta : ContinuousAt δ t₀
  delta_pos : 0 < δ t₀
  vary_B : ContinuousAt B t₀
  B_pos : 0 < B t₀
  vary_R_b : ContinuousAt R_b t₀
  dist : Varies t₀ d

theorem eventually_limits {d : T → Dist} (h : Varies t₀ d) : ∀ᶠ t in 𝓝 t₀, 0 < (d t).gmin ∧ (d t).gmin < (d t).gmax := by
  have l := h.limits
  filter_upwards [l.low.eventually (lt_mem_nhds l.pos), l.low.eventually_lt l.up l.lt] with t h1 h2
  exact ⟨h1, h2⟩

theorem Setting.eps_pos (h : Setting k t₀ nu z d_L δ B R_b d) : 0 < nuToEps k (nu t₀) (z t₀) (δ t₀) :=
  nuToEps_pos h.consts h.nu_pos h.z_nonneg h.delta_pos

/-- C94: the optically thin synchrotron SED on the array of Lorentz factors that follows the limits is continuous in the
frequency, the attributes of the blob and all parameters of the distribution, taken together -/
theorem C94_synchrotron (h : Setting k t₀ nu z d_L δ B R_b d) {n : ℕ} (hn : 2 ≤ n) :
    ContinuousAt (fun t => sedFlux k trapz false (nu t) (z t) (d_L t) (δ t) (B t) (R_b t) (d t)
      (logspace (log10 (d t).gmin) (log10 (d t).gmax) n)) t₀ := by
  have hε := continuousAt_eps (k := k) h.vary_nu h.vary_z h.vary_delta h.delta_pos
  have hV : ContinuousAt (fun t => volume (R_b t)) t₀ := continuousAt_const.mul (h.vary_R_b.pow 3)
  have hi := continuousAt_own h.dist hn (w := fun t g => volume (R_b t) * (d t).call g
      * power k (B t) (nuToEps k (nu t) (z t) (δ t)) g k.m_e) fun x hx x0 hin =>
    (hV.mul (h.dist.call hx x0 hin)).mul (continuousAt_power h.consts h.consts.m_e h.vary_B h.B_pos hε h.eps_pos hx x0)
  have hp := h.d_L_pos
  have hpre : ContinuousAt (fun t => δ t ^ 4 / (4 * Real.pi * d_L t ^ 2)) t₀ :=
    (h.vary_delta.pow 4).div (continuousAt_const.mul (h.vary_d_L.pow 2)) (by positivity)
  refine ((hpre.mul hε).mul hi).congr ?_
  filter_upwards [eventually_limits h.dist] with t ht
  show _ = sedThin k trapz (nu t) (z t) (d_L t) (δ t) (B t) (R_b t) (d t) _
  rw [sedThin_eq, (Prod.mk.inj (Dist.evaluate_own ht.1 ht.2 hn)).1]
  rfl

/-- C94 for protons -/
theorem C94_proton (h : Setting k t₀ nu z d_L δ B R_b d) {n : ℕ} (hn : 2 ≤ n) :
    ContinuousAt (fun t => sedFluxProton k trapz (nu t) (z t) (d_L t) (δ t) (B t) (R_b t) (d t)
      (logspace (log10 (d t).gmin) (log10 (d t).gmax) n)) t₀ := by
  have hε : ContinuousAt (fun t => nuToEpsP k (nu t) (z t) (δ t)) t₀ := by
    unfold nuToEpsP
    exact ((continuousAt_const.add h.vary_z).mul ((continuousAt_const.mul h.vary_nu).div_const _)).div h.vary_delta
      h.delta_pos.ne'
  have hV : ContinuousAt (fun t => volume (R_b t)) t₀ := continuousAt_const.mul (h.vary_R_b.pow 3)
  have hi := continuousAt_own h.dist hn (w := fun t g => volume (R_b t) * (d t).call g
      * power k (B t) (nuToEpsP k (nu t) (z t) (δ t)) g k.m_p) fun x hx x0 hin =>
    (hV.mul (h.dist.call hx x0 hin)).mul (continuousAt_power h.consts h.consts.m_p h.vary_B h.B_pos hε
      (eps_proton_pos h.consts h.nu_pos h.z_nonneg h.delta_pos) hx x0)
  have hp := h.d_L_pos
  have hpre : ContinuousAt (fun t => δ t ^ 4 / (4 * Real.pi * d_L t ^ 2)) t₀ :=
    (h.vary_delta.pow 4).div (continuousAt_const.mul (h.vary_d_L.pow 2)) (by positivity)
  refine ((hpre.mul hε).mul hi).congr ?_
  filter_upwards [eventually_limits h.dist] with t ht
  rw [sedFluxProton_eq, (Prod.mk.inj (Dist.evaluate_own ht.1 ht.2 hn)).1]
  rfl

theorem continuousAt_tau (h : Setting k t₀ nu z d_L δ B R_b d) (hu : (d t₀).Unbroken) {n : ℕ} (hn : 2 ≤ n) :
    ContinuousAt (fun t => tauSSA k trapz (nu t) (z t) (δ t) (B t) (R_b t) (d t)
      (logspace (log10 (d t).gmin) (log10 (d t).gmax) n)) t₀ := by
  have hε := continuousAt_eps (k := k) h.vary_nu h.vary_z h.vary_delta h.delta_pos
  have hi := continuousAt_own h.dist hn (w := fun t g => (d t).ssa g
      * power k (B t) (nuToEps k (nu t) (z t) (δ t)) g k.m_e) fun x hx x0 hin =>
    (h.dist.ssa hu hx x0 hin).mul (continuousAt_power h.consts h.consts.m_e h.vary_B h.B_pos hε h.eps_pos hx x0)
  have hm := h.consts.m_e
  have he := h.eps_pos
  have hpre : ContinuousAt (fun t => -1 / (8 * Real.pi * k.m_e * nuToEps k (nu t) (z t) (δ t) ^ 2)
      * (k.lambda_c_e / k.c) ^ 3) t₀ :=
    (continuousAt_const.div (continuousAt_const.mul (hε.pow 2)) (by
      show 8 * Real.pi * k.m_e * nuToEps k (nu t₀) (z t₀) (δ t₀) ^ 2 ≠ 0
      positivity)).mul continuousAt_const
  refine ((continuousAt_const (y := (2 : ℝ)).mul (hpre.mul hi)).mul h.vary_R_b).congr ?_
  filter_upwards [eventually_limits h.dist] with t ht
  unfold tauSSA over
  rw [Dist.ssaIntegrand_own ht.1 ht.2 hn]
  simp only
  rw [zipWith_mul_map]
  rfl

/-- C94 with self-absorption, for distributions without a break, unless the opacity is exactly the threshold 1/1000 below
which the code neglects the absorption -/
theorem C94_synchrotron_ssa (h : Setting k t₀ nu z d_L δ B R_b d) (hu : (d t₀).Unbroken) {n : ℕ} (hn : 2 ≤ n)
    (ht : tauSSA k trapz (nu t₀) (z t₀) (δ t₀) (B t₀) (R_b t₀) (d t₀)
      (logspace (log10 (d t₀).gmin) (log10 (d t₀).gmax) n) ≠ 1 / 1000) :
    ContinuousAt (fun t => sedFlux k trapz true (nu t) (z t) (d_L t) (δ t) (B t) (R_b t) (d t)
      (logspace (log10 (d t).gmin) (log10 (d t).gmax) n)) t₀ := by
  have ha := ContinuousAt.comp (g := tauToAttenuation)
    (f := fun t => tauSSA k trapz (nu t) (z t) (δ t) (B t) (R_b t) (d t)
      (logspace (log10 (d t).gmin) (log10 (d t).gmax) n)) (continuousAt_attenuation ht) (continuousAt_tau h hu hn)
  refine ((C94_synchrotron h hn).mul ha).congr ?_
  filter_upwards [eventually_limits h.dist] with t ht
  show sedThin k trapz (nu t) (z t) (d_L t) (δ t) (B t) (R_b t) (d t) _ * _
    = sedThin k trapz (nu t) (z t) (d_L t) (δ t) (B t) (R_b t) (d t) _ * tauToAttenuation (tauSSA k trapz (nu t) (z t) (δ t)
      (B t) (R_b t) (d t) ((d t).afterCall _))
  rw [(Prod.mk.inj (Dist.evaluate_own ht.1 ht.2 hn)).1]
  rfl

/-- the hypotheses are met, e.g. with everything moving: `t` near 1 scales the frequency, the blob and the limits -/
theorem demoSetting : Setting ⟨1, 1, 1, 1, 1, 1, 1, 1, 1, 1⟩ (1 : ℝ) (fun t => 5 * t) (fun t => t) (fun t => t ^ 2)
    (fun t => 10 * t) (fun t => t) (fun t => t) fun t => .broken t (2 * t) (3 * t) (100 * t) (10 * t) (1000 * t) where
  consts := demoPhysical.consts
  vary_nu := by fun_prop
  nu_pos := by norm_num
  vary_z := by fun_prop
  z_nonneg := by norm_num
  vary_d_L := by fun_prop
  d_L_pos := by norm_num
  vary_delta := by fun_prop
  delta_pos := by norm_num
  vary_B := by fun_prop
  B_pos := by norm_num
  vary_R_b := by fun_prop
  dist := .broken ⟨by fun_prop, by fun_prop, by norm_num, by norm_num⟩ (by fun_prop) (by fun_prop) (by fun_prop)
    (by fun_prop) (by norm_num)

example : ContinuousAt (fun t : ℝ => sedFlux ⟨1, 1, 1, 1, 1, 1, 1, 1, 1, 1⟩ trapz false (5 * t) t (t ^ 2) (10 * t) t t
    (.broken t (2 * t) (3 * t) (100 * t) (10 * t) (1000 * t)) (logspace (log10 (10 * t)) (log10 (1000 * t)) 200)) 1 :=
  C94_synchrotron demoSetting (by norm_num)

end Synchrotron

namespace Region

open Synchrotron

/-- C94 for a blob: the number and energy densities of its electrons, its synchrotron energy density and its synchrotron
SED vary continuously when its attributes and the parameters of its electrons do -/
theorem C94_blob {k : Consts} {nu : T → ℝ} {b : T → Blob} {n : ℕ} (hn : 2 ≤ n) (hs : ∀ t, (b t).gamma_e_size = n)
    (h : Setting k t₀ nu (fun t => (b t).z) (fun t => (b t).d_L) (fun t => (b t).delta_D) (fun t => (b t).B)
      (fun t => (b t).R_b) fun t => (b t).n_e) :
    ContinuousAt (fun t => (b t).n_e_tot) t₀ ∧ ContinuousAt (fun t => (b t).u_e k) t₀
      ∧ ContinuousAt (fun t => (b t).W_e k) t₀ ∧ ContinuousAt (fun t => (b t).u_ph_synch k) t₀
      ∧ ContinuousAt (fun t => sedFlux k trapz false (nu t) (b t).z (b t).d_L (b t).delta_D (b t).B (b t).R_b (b t).n_e
        (b t).gamma_e) t₀ := by
  have hgrid : ∀ t, (b t).gamma_e = logspace (log10 (b t).n_e.gmin) (log10 (b t).n_e.gmax) n := by
    intro t
    unfold Blob.gamma_e
    rw [hs t]
  have hn0 : ContinuousAt (fun t => (b t).n_e_tot) t₀ := by
    refine (continuousAt_own h.dist hn (w := fun t => (b t).n_e.call) fun x hx x0 hin => h.dist.call hx x0 hin).congr ?_
    filter_upwards [eventually_limits h.dist] with t ht
    unfold Blob.n_e_tot over
    rw [hgrid t, Dist.evaluate_own ht.1 ht.2 hn]
  have hu : ContinuousAt (fun t => (b t).u_e k) t₀ := by
    refine ContinuousAt.congr (f := fun t => k.mec2 * over trapz (logspace (log10 (b t).n_e.gmin) (log10 (b t).n_e.gmax) n)
      fun g => g * (b t).n_e.call g) (continuousAt_const.mul (continuousAt_own h.dist hn fun x hx x0 hin =>
        hx.mul (h.dist.call hx x0 hin))) ?_
    filter_upwards [eventually_limits h.dist] with t ht
    unfold Blob.u_e over
    rw [hgrid t, Dist.evaluate_own ht.1 ht.2 hn]
    dsimp only
    rw [← zipWith_mul_map (fun g : ℝ => g), List.map_id']
  have hV : ContinuousAt (fun t => (b t).V_b) t₀ := continuousAt_const.mul (h.vary_R_b.pow 3)
  refine ⟨hn0, hu, hV.mul hu, ?_, ?_⟩
  · refine ContinuousAt.congr (f := fun t => k.sigma_T * (b t).U_B * (b t).R_b * over trapz
      (logspace (log10 (b t).n_e.gmin) (log10 (b t).n_e.gmax) n) fun g => g ^ 2 * (b t).n_e.call g) ?_ ?_
    · have hU : ContinuousAt (fun t => (b t).U_B) t₀ := (h.vary_B.pow 2).div_const _
      exact ((continuousAt_const.mul hU).mul h.vary_R_b).mul (continuousAt_own h.dist hn fun x hx x0 hin =>
        (hx.pow 2).mul (h.dist.call hx x0 hin))
    · filter_upwards [eventually_limits h.dist] with t ht
      unfold Blob.u_ph_synch over
      rw [hgrid t, Dist.evaluate_own ht.1 ht.2 hn]
      dsimp only
      rw [zipWith_mul_map]
  · refine (C94_synchrotron h hn).congr (Eventually.of_forall fun t => ?_)
    dsimp only
    rw [hgrid t]

end Region

end Verif
