import Verif.Props.Fit
import Verif.Props.Compton

/- C97: how the fit models depend on the density of the electrons and on the luminosity of the disk. -/

namespace Verif.Fit

open MathUtils Spectra Targets Classical

variable {k : Consts} {distance : ℝ → ℝ}

/-- the parameters with `s` added to those of the given names -/
noncomputable def raise (names : List Name) (s : ℝ) (kwargs : Pars) : Pars :=
  kwargs.map fun q => if q.1 ∈ names then (q.1, q.2 + s) else q

theorem raise_lookup (names : List Name) (s : ℝ) (n : Name) : ∀ kwargs : Pars,
    (raise names s kwargs).lookup n = (kwargs.lookup n).map fun v => if n ∈ names then v + s else v
  | [] => rfl
  | (m, v) :: l => by
    have ih := raise_lookup names s n l
    unfold raise at ih ⊢
    rw [List.map_cons]
    by_cases hm : n = m
    · subst hm
      by_cases hn : n ∈ names <;> simp [hn]
    · have e : ∀ w : ℝ, List.lookup n ((m, w) :: List.map (fun q => if q.1 ∈ names then (q.1, q.2 + s) else q) l)
          = List.lookup n (List.map (fun q => if q.1 ∈ names then (q.1, q.2 + s) else q) l) := by
        intro w
        rw [List.lookup_cons, beq_false_of_ne hm]
      have e' : List.lookup n ((m, v) :: l) = List.lookup n l := by rw [List.lookup_cons, beq_false_of_ne hm]
      rw [e', ← ih]
      by_cases hn : m ∈ names <;> simp only [hn, if_true, if_false, e]

/-- the normalisations of the electron distributions -/
def density : List Name := [log10_ .k, log10_ .norm]

/-- the luminosity of the disk -/
def disk : List Name := [log10_ .L_disk]

theorem raise_other {names : List Name} (s : ℝ) {n : Name} (hn : n ∉ names) (kwargs : Pars) :
    (raise names s kwargs).lookup n = kwargs.lookup n := by
  rw [raise_lookup]
  simp [hn]

theorem raise_own {names : List Name} (s : ℝ) {n : Name} (hn : n ∈ names) (kwargs : Pars) :
    (raise names s kwargs).lookup n = (kwargs.lookup n).map (· + s) := by
  rw [raise_lookup]
  simp [hn]

theorem ten_add (a s : ℝ) : (10 : ℝ) ^ (a + s) = (10 : ℝ) ^ s * (10 : ℝ) ^ a := by
  rw [Real.rpow_add (by norm_num), mul_comm]

/-- a higher density is the scaled distribution -/
theorem raise_spectrum (n_e : Dist) (s : ℝ) {kwargs : Pars} {args : List ℝ} {n : Dist}
    (h : sortSpectral (spectralNames n_e) kwargs = some args) (hn : withParameters n_e args = some n) :
    ∃ args', sortSpectral (spectralNames n_e) (raise density s kwargs) = some args'
      ∧ withParameters n_e args' = some (n.scale ((10 : ℝ) ^ s)) := by
  have hk := raise_own s (names := density) (n := log10_ .k) (by simp [density]) kwargs
  have hnm := raise_own s (names := density) (n := log10_ .norm) (by simp [density]) kwargs
  have hr : ∀ m : Name, m ∉ density → (raise density s kwargs).lookup m = kwargs.lookup m :=
    fun m hm => raise_other s hm kwargs
  have hp := hr (plain .p) (by decide)
  have hp1 := hr (plain .p1) (by decide)
  have hp2 := hr (plain .p2) (by decide)
  have hq := hr (plain .q) (by decide)
  have hgc := hr (log10_ .gamma_c) (by decide)
  have hgb := hr (log10_ .gamma_b) (by decide)
  have hg0 := hr (log10_ .gamma_0) (by decide)
  have hl := hr (log10_ .gamma_min) (by decide)
  have hu := hr (log10_ .gamma_max) (by decide)
  simp only [plain, log10_] at hk hnm hp hp1 hp2 hq hgc hgb hg0 hl hu
  cases n_e with
  | powerLaw k p _ _ =>
    simp only [spectralNames, pars_powerLaw, List.map_cons, List.map_nil, plain, log10_, sortSpectral, List.mapM_cons,
      List.mapM_nil, hk, hp, hl, hu] at h ⊢
    generalize List.lookup (⟨true, .k⟩ : Name) kwargs = v1 at h ⊢
    generalize List.lookup (⟨false, .p⟩ : Name) kwargs = v2 at h ⊢
    generalize List.lookup (⟨true, .gamma_min⟩ : Name) kwargs = v3 at h ⊢
    generalize List.lookup (⟨true, .gamma_max⟩ : Name) kwargs = v4 at h ⊢
    cases v1 <;> cases v2 <;> cases v3 <;> cases v4 <;> simp at h ⊢
    subst h
    simp only [withParameters, Option.some.injEq] at hn
    subst hn
    simp [withParameters, Dist.scale, ten_add]
  | broken k p1 p2 gb _ _ =>
    simp only [spectralNames, pars_broken, List.map_cons, List.map_nil, plain, log10_, sortSpectral, List.mapM_cons,
      List.mapM_nil, hk, hp1, hp2, hgb, hl, hu] at h ⊢
    generalize List.lookup (⟨true, .k⟩ : Name) kwargs = v1 at h ⊢
    generalize List.lookup (⟨false, .p1⟩ : Name) kwargs = v2 at h ⊢
    generalize List.lookup (⟨false, .p2⟩ : Name) kwargs = v5 at h ⊢
    generalize List.lookup (⟨true, .gamma_b⟩ : Name) kwargs = v6 at h ⊢
    generalize List.lookup (⟨true, .gamma_min⟩ : Name) kwargs = v3 at h ⊢
    generalize List.lookup (⟨true, .gamma_max⟩ : Name) kwargs = v4 at h ⊢
    cases v1 <;> cases v2 <;> cases v5 <;> cases v6 <;> cases v3 <;> cases v4 <;> simp at h ⊢
    subst h
    simp only [withParameters, Option.some.injEq] at hn
    subst hn
    simp [withParameters, Dist.scale, ten_add]
  | logParabola k p q g0 _ _ =>
    simp only [spectralNames, pars_logParabola, List.map_cons, List.map_nil, plain, log10_, sortSpectral, List.mapM_cons,
      List.mapM_nil, hk, hp, hq, hg0, hl, hu] at h ⊢
    generalize List.lookup (⟨true, .k⟩ : Name) kwargs = v1 at h ⊢
    generalize List.lookup (⟨false, .p⟩ : Name) kwargs = v2 at h ⊢
    generalize List.lookup (⟨false, .q⟩ : Name) kwargs = v5 at h ⊢
    generalize List.lookup (⟨true, .gamma_0⟩ : Name) kwargs = v6 at h ⊢
    generalize List.lookup (⟨true, .gamma_min⟩ : Name) kwargs = v3 at h ⊢
    generalize List.lookup (⟨true, .gamma_max⟩ : Name) kwargs = v4 at h ⊢
    cases v1 <;> cases v2 <;> cases v5 <;> cases v6 <;> cases v3 <;> cases v4 <;> simp at h ⊢
    subst h
    simp only [withParameters, Option.some.injEq] at hn
    subst hn
    simp [withParameters, Dist.scale, ten_add]
  | ecpl k p gc _ _ =>
    simp only [spectralNames, pars_ecpl, List.map_cons, List.map_nil, plain, log10_, sortSpectral, List.mapM_cons,
      List.mapM_nil, hk, hp, hgc, hl, hu] at h ⊢
    generalize List.lookup (⟨true, .k⟩ : Name) kwargs = v1 at h ⊢
    generalize List.lookup (⟨false, .p⟩ : Name) kwargs = v2 at h ⊢
    generalize List.lookup (⟨true, .gamma_c⟩ : Name) kwargs = v5 at h ⊢
    generalize List.lookup (⟨true, .gamma_min⟩ : Name) kwargs = v3 at h ⊢
    generalize List.lookup (⟨true, .gamma_max⟩ : Name) kwargs = v4 at h ⊢
    cases v1 <;> cases v2 <;> cases v5 <;> cases v3 <;> cases v4 <;> simp at h ⊢
    subst h
    simp only [withParameters, Option.some.injEq] at hn
    subst hn
    simp [withParameters, Dist.scale, ten_add]
  | ecbpl k p1 p2 gc gb _ _ =>
    simp only [spectralNames, pars_ecbpl, List.map_cons, List.map_nil, plain, log10_, sortSpectral, List.mapM_cons,
      List.mapM_nil, hk, hp1, hp2, hgc, hgb, hl, hu] at h ⊢
    generalize List.lookup (⟨true, .k⟩ : Name) kwargs = v1 at h ⊢
    generalize List.lookup (⟨false, .p1⟩ : Name) kwargs = v2 at h ⊢
    generalize List.lookup (⟨false, .p2⟩ : Name) kwargs = v5 at h ⊢
    generalize List.lookup (⟨true, .gamma_c⟩ : Name) kwargs = v7 at h ⊢
    generalize List.lookup (⟨true, .gamma_b⟩ : Name) kwargs = v6 at h ⊢
    generalize List.lookup (⟨true, .gamma_min⟩ : Name) kwargs = v3 at h ⊢
    generalize List.lookup (⟨true, .gamma_max⟩ : Name) kwargs = v4 at h ⊢
    cases v1 <;> cases v2 <;> cases v5 <;> cases v7 <;> cases v6 <;> cases v3 <;> cases v4 <;> simp at h ⊢
    subst h
    simp only [withParameters, Option.some.injEq] at hn
    subst hn
    simp [withParameters, Dist.scale, ten_add]
  | interp f df norm _ _ =>
    simp only [spectralNames, pars_interp, List.map_cons, List.map_nil, log10_, sortSpectral, List.mapM_cons,
      List.mapM_nil, hnm, hl, hu] at h ⊢
    generalize List.lookup (⟨true, .norm⟩ : Name) kwargs = v1 at h ⊢
    generalize List.lookup (⟨true, .gamma_min⟩ : Name) kwargs = v3 at h ⊢
    generalize List.lookup (⟨true, .gamma_max⟩ : Name) kwargs = v4 at h ⊢
    cases v1 <;> cases v3 <;> cases v4 <;> simp at h ⊢
    subst h
    simp only [withParameters, Option.some.injEq] at hn
    subst hn
    simp [withParameters, Dist.scale, ten_add]
  | empty _ _ =>
    simp only [spectralNames, pars_empty, List.map_cons, List.map_nil, log10_, sortSpectral, List.mapM_cons,
      List.mapM_nil, hl, hu] at h ⊢
    generalize List.lookup (⟨true, .gamma_min⟩ : Name) kwargs = v3 at h ⊢
    generalize List.lookup (⟨true, .gamma_max⟩ : Name) kwargs = v4 at h ⊢
    cases v3 <;> cases v4 <;> simp at h ⊢
    subst h
    simp only [withParameters, Option.some.injEq] at hn
    subst hn
    simp [withParameters, Dist.scale]

theorem raise_emission {names : List Name} (s : ℝ) (hn : ∀ n ∈ names, n ∈ density ∨ n ∈ disk) (kwargs : Pars) :
    sortEmission k distance (raise names s kwargs) = sortEmission k distance kwargs
      ∧ sortJet (raise names s kwargs) = sortJet kwargs ∧ sortBLR k (raise names s kwargs) = sortBLR k kwargs
      ∧ sortDT k (raise names s kwargs) = sortDT k kwargs := by
  have hr : ∀ m : Name, m ∉ density → m ∉ disk → (raise names s kwargs).lookup m = kwargs.lookup m :=
    fun m h1 h2 => raise_other s (fun hm => (hn m hm).elim h1 h2) kwargs
  simp only [sortEmission, sortJet, sortBLR, sortDT, hr _ (by decide : plain .z ∉ density) (by decide),
    hr _ (by decide : plain .delta_D ∉ density) (by decide), hr _ (by decide : log10_ .B ∉ density) (by decide),
    hr _ (by decide : plain .t_var ∉ density) (by decide), hr _ (by decide : plain .mu_s ∉ density) (by decide),
    hr _ (by decide : log10_ .r ∉ density) (by decide), hr _ (by decide : plain .xi_line ∉ density) (by decide),
    hr _ (by decide : plain .lambda_line ∉ density) (by decide), hr _ (by decide : plain .R_line ∉ density) (by decide),
    hr _ (by decide : plain .xi_dt ∉ density) (by decide), hr _ (by decide : plain .T_dt ∉ density) (by decide),
    hr _ (by decide : plain .R_dt ∉ density) (by decide), and_self]

theorem scale_afterSynch (c : ℝ) (d : Dist) (ssa : Bool) (gamma : List ℝ) :
    afterSynch (d.scale c) ssa gamma = afterSynch d ssa gamma := by
  unfold afterSynch
  simp only [Dist.scale_afterCall, Dist.scale_afterSSA]

/-- C97: the SSC models consist of a part proportional to the electron density and a part proportional to its square -/
theorem C97_ssc (n_e : Dist) (gamma : List ℝ) {energy x : ℝ} {kwargs : Pars}
    (h : gammapySSC k distance n_e false gamma energy kwargs = some x) :
    ∃ synch ssc, synch + ssc = x ∧ ∀ s, gammapySSC k distance n_e false gamma energy (raise density s kwargs)
      = some ((10 : ℝ) ^ s * synch + ((10 : ℝ) ^ s) ^ 2 * ssc) := by
  unfold gammapySSC at h ⊢
  simp only [Option.bind_eq_bind, Option.bind_eq_some_iff] at h
  obtain ⟨args, h1, e, h2, n, h3, h4⟩ := h
  refine ⟨Synchrotron.sedFlux k trapz false (energy / k.h) e.z e.d_L e.delta_D e.B e.R_b n gamma / energy ^ 2,
    Compton.sscSed k trapz false (energy / k.h) e.z e.d_L e.delta_D e.B e.R_b n (afterSynch n false gamma) / energy ^ 2, ?_, ?_⟩
  · rw [← add_div]
    exact Option.some.inj h4
  · intro s
    obtain ⟨args', h5, h6⟩ := raise_spectrum n_e s h1 h3
    simp only [Option.bind_eq_bind]
    rw [h5, Option.bind_some, (raise_emission s (fun n hn => .inl hn) kwargs).1, h2, Option.bind_some, h6, Option.bind_some]
    unfold synchPlusSSC
    simp only [scale_afterSynch, Synchrotron.C51_linear homogeneous_trapz, Compton.C53_quadratic homogeneous_trapz]
    congr 1
    ring

theorem blr_scale (c a nu z d_L δ mu_s R_b L_disk xi eps R r : ℝ) (n : Dist) (gamma mu phi : List ℝ) :
    Compton.blr k trapz nu z d_L δ mu_s R_b (a * L_disk) xi eps R r (n.scale c) gamma mu phi
      = c * a * Compton.blr k trapz nu z d_L δ mu_s R_b L_disk xi eps R r n gamma mu phi := by
  unfold Compton.blr
  simp only [Compton.boostedN_scale]
  have e : ∀ φ m, Compton.fold trapz ((Compton.boostedN n R_b δ gamma).map (c * ·)) gamma (fun N g =>
        1 / Geometry.xReShell m R r ^ 2 * N / g ^ 2
          * Kernels.comptonKernel g (nuToEps k nu z 1) eps mu_s (Geometry.muStarShell m R r) φ)
      = c * Compton.fold trapz (Compton.boostedN n R_b δ gamma) gamma (fun N g =>
        1 / Geometry.xReShell m R r ^ 2 * N / g ^ 2
          * Kernels.comptonKernel g (nuToEps k nu z 1) eps mu_s (Geometry.muStarShell m R r) φ) :=
    fun φ m => Compton.fold_scale homogeneous_trapz c _ _ fun n g => by ring
  simp only [e, over_scale homogeneous_trapz]
  ring

theorem dt_scale (c a nu z d_L δ mu_s R_b L_disk xi eps R r : ℝ) (n : Dist) (gamma phi : List ℝ) :
    Compton.dt k trapz nu z d_L δ mu_s R_b (a * L_disk) xi eps R r (n.scale c) gamma phi
      = c * a * Compton.dt k trapz nu z d_L δ mu_s R_b L_disk xi eps R r n gamma phi := by
  unfold Compton.dt
  simp only [Compton.boostedN_scale]
  have e : ∀ φ, Compton.fold trapz ((Compton.boostedN n R_b δ gamma).map (c * ·)) gamma (fun N g =>
        N / g ^ 2 * Kernels.comptonKernel g (nuToEps k nu z 1) eps mu_s (r / Geometry.xReRing R r) φ)
      = c * Compton.fold trapz (Compton.boostedN n R_b δ gamma) gamma (fun N g =>
        N / g ^ 2 * Kernels.comptonKernel g (nuToEps k nu z 1) eps mu_s (r / Geometry.xReRing R r) φ) :=
    fun φ => Compton.fold_scale homogeneous_trapz c _ _ fun n g => by ring
  simp only [e, over_scale homogeneous_trapz]
  ring

theorem raise_disk (s : ℝ) (kwargs : Pars) : sortDisk (raise density s kwargs) = sortDisk kwargs
    ∧ sortDisk (raise disk s kwargs) = (sortDisk kwargs).map fun p => ((10 : ℝ) ^ s * p.1, p.2) := by
  have hr : ∀ m : Name, m ∉ density → (raise density s kwargs).lookup m = kwargs.lookup m := fun m hm => raise_other s hm kwargs
  have hd : ∀ m : Name, m ∉ disk → (raise disk s kwargs).lookup m = kwargs.lookup m := fun m hm => raise_other s hm kwargs
  have hL := raise_own s (names := disk) (n := log10_ .L_disk) (by simp [disk]) kwargs
  constructor
  · simp only [sortDisk, hr _ (by decide : log10_ .L_disk ∉ density), hr _ (by decide : plain .M_BH ∉ density),
      hr _ (by decide : plain .m_dot ∉ density), hr _ (by decide : plain .R_in ∉ density),
      hr _ (by decide : plain .R_out ∉ density)]
  · simp only [sortDisk, hL, hd _ (by decide : plain .M_BH ∉ disk), hd _ (by decide : plain .m_dot ∉ disk),
      hd _ (by decide : plain .R_in ∉ disk), hd _ (by decide : plain .R_out ∉ disk)]
    generalize kwargs.lookup (log10_ .L_disk) = o1
    generalize kwargs.lookup (plain .M_BH) = o2
    generalize kwargs.lookup (plain .m_dot) = o3
    generalize kwargs.lookup (plain .R_in) = o4
    generalize kwargs.lookup (plain .R_out) = o5
    cases o1 <;> cases o2 <;> cases o3 <;> cases o4 <;> cases o5 <;> simp [ten_add]

/-- the luminosity of the disk does not concern the electrons -/
theorem raise_disk_spectrum (n_e : Dist) (s : ℝ) (kwargs : Pars) :
    sortSpectral (spectralNames n_e) (raise disk s kwargs) = sortSpectral (spectralNames n_e) kwargs := by
  have hd : ∀ m : Name, m ∉ disk → (raise disk s kwargs).lookup m = kwargs.lookup m := fun m hm => raise_other s hm kwargs
  cases n_e <;> simp only [spectralNames, pars_powerLaw, pars_broken, pars_logParabola, pars_ecpl, pars_ecbpl, pars_interp,
    pars_empty, List.map_cons, List.map_nil, sortSpectral, List.mapM_cons, List.mapM_nil,
    hd _ (by decide : log10_ .k ∉ disk), hd _ (by decide : log10_ .norm ∉ disk), hd _ (by decide : plain .p ∉ disk),
    hd _ (by decide : plain .p1 ∉ disk), hd _ (by decide : plain .p2 ∉ disk), hd _ (by decide : plain .q ∉ disk),
    hd _ (by decide : log10_ .gamma_c ∉ disk), hd _ (by decide : log10_ .gamma_b ∉ disk),
    hd _ (by decide : log10_ .gamma_0 ∉ disk), hd _ (by decide : log10_ .gamma_min ∉ disk),
    hd _ (by decide : log10_ .gamma_max ∉ disk)]

theorem multiTNormSed_scale (a nu z L M m R_in R_out d_L mu_s : ℝ) :
    SSDisk.multiTNormSed k nu z (a * L) M m R_in R_out d_L mu_s = a * SSDisk.multiTNormSed k nu z L M m R_in R_out d_L mu_s := by
  unfold SSDisk.multiTNormSed
  ring

theorem bbNormSed_scale (a nu z L T R d_L : ℝ) :
    DT.bbNormSed k nu z (a * L) T R d_L = a * DT.bbNormSed k nu z L T R d_L := by
  unfold DT.bbNormSed
  ring

/-- the contribution of the BLR -/
theorem gammapyBLR_raise {targets : List String} {nu mu_s r L x : ℝ} {e : Emission} {n : Dist} {kwargs kwargs' : Pars}
    (hk : sortBLR k kwargs' = sortBLR k kwargs) (h : gammapyBLR k targets nu e mu_s r L n kwargs = some x) (c a : ℝ) :
    gammapyBLR k targets nu e mu_s r (a * L) (n.scale c) kwargs' = some (c * a * x) := by
  unfold gammapyBLR at h ⊢
  by_cases ht : "blr" ∈ targets
  · simp only [ht, if_true, Option.bind_eq_bind, Option.bind_eq_some_iff] at h ⊢
    obtain ⟨⟨xi, eps, R⟩, h1, h2⟩ := h
    refine ⟨⟨xi, eps, R⟩, by rw [hk, h1], ?_⟩
    simp only [Option.some.injEq] at h2 ⊢
    rw [blr_scale, h2]
  · simp only [ht, if_false, Option.some.injEq] at h ⊢
    rw [← h, mul_zero]

/-- the contribution of the torus: scattered and thermal -/
theorem gammapyDT_raise {targets : List String} {nu mu_s r L x : ℝ} {e : Emission} {n : Dist} {kwargs : Pars}
    (h : gammapyDT k targets nu e mu_s r L n kwargs = some x) :
    ∃ ec bb, ec + bb = x ∧ ∀ (c a : ℝ) (kwargs' : Pars), sortDT k kwargs' = sortDT k kwargs →
      gammapyDT k targets nu e mu_s r (a * L) (n.scale c) kwargs' = some (c * a * ec + a * bb) := by
  unfold gammapyDT at h ⊢
  by_cases ht : "dt" ∈ targets
  · simp only [ht, if_true, Option.bind_eq_bind, Option.bind_eq_some_iff] at h ⊢
    obtain ⟨⟨xi, eps, T, R⟩, h1, h2⟩ := h
    refine ⟨_, _, Option.some.inj h2, fun c a kwargs' hk => ⟨⟨xi, eps, T, R⟩, by rw [hk, h1], ?_⟩⟩
    simp only [Option.some.injEq]
    rw [dt_scale, ← bbNormSed_scale]
    ring_nf
  · simp only [ht, if_false, Option.some.injEq] at h ⊢
    exact ⟨0, 0, by rw [← h, add_zero], fun c a _ _ => by ring⟩

/-- C97: the external Compton models consist of four parts: proportional to the density (synchrotron), to its square (SSC), to
the luminosity of the disk (thermal) and to the product of both (external Compton) -/
theorem C97_ec (n_e : Dist) (targets : List String) (gamma : List ℝ) {energy x : ℝ} {kwargs : Pars}
    (h : gammapyEC k distance n_e targets false gamma energy kwargs = some x) :
    ∃ synch ssc thermal ec, synch + ssc + thermal + ec = x ∧ ∀ s t,
      gammapyEC k distance n_e targets false gamma energy (raise disk t (raise density s kwargs))
        = some ((10 : ℝ) ^ s * synch + ((10 : ℝ) ^ s) ^ 2 * ssc + (10 : ℝ) ^ t * thermal + (10 : ℝ) ^ s * (10 : ℝ) ^ t * ec) := by
  unfold gammapyEC at h ⊢
  simp only [Option.bind_eq_bind, Option.bind_eq_some_iff] at h
  obtain ⟨args, h1, e, h2, ⟨mu_s, r⟩, hj, n, h3, ⟨L, M, m, R_in, R_out⟩, hD, b, hb, d, hd, h4⟩ := h
  obtain ⟨dec, dbb, hsum, hdt⟩ := gammapyDT_raise hd
  refine ⟨Synchrotron.sedFlux k trapz false (energy / k.h) e.z e.d_L e.delta_D e.B e.R_b n gamma / energy ^ 2,
    Compton.sscSed k trapz false (energy / k.h) e.z e.d_L e.delta_D e.B e.R_b n (afterSynch n false gamma) / energy ^ 2,
    (SSDisk.multiTNormSed k (energy / k.h) e.z L M m R_in R_out e.d_L 1 + dbb) / energy ^ 2, (b + dec) / energy ^ 2, ?_, ?_⟩
  · rw [← Option.some.inj h4, ← hsum]
    unfold synchPlusSSC
    ring
  · intro s t
    obtain ⟨args', h5, h6⟩ := raise_spectrum n_e s h1 h3
    obtain ⟨r1, r2, r3, r4⟩ := raise_emission (k := k) (distance := distance) s (fun n hn => .inl hn : ∀ n ∈ density, _) kwargs
    obtain ⟨q1, q2, q3, q4⟩ := raise_emission (k := k) (distance := distance) t (fun n hn => .inr hn : ∀ n ∈ disk, _)
      (raise density s kwargs)
    have hb' := gammapyBLR_raise (q3.trans r3) hb ((10 : ℝ) ^ s) ((10 : ℝ) ^ t)
    have hd' := hdt ((10 : ℝ) ^ s) ((10 : ℝ) ^ t) _ (q4.trans r4)
    simp only [Option.bind_eq_bind]
    rw [raise_disk_spectrum, h5, Option.bind_some, q1, r1, h2, Option.bind_some, q2, r2, hj, Option.bind_some]
    dsimp only
    rw [h6, Option.bind_some, (raise_disk t _).2, (raise_disk s _).1, hD, Option.map_some, Option.bind_some]
    dsimp only
    rw [hb', Option.bind_some, hd', Option.bind_some]
    unfold synchPlusSSC
    simp only [scale_afterSynch, Synchrotron.C51_linear homogeneous_trapz, Compton.C53_quadratic homogeneous_trapz,
      multiTNormSed_scale]
    congr 1
    ring

/-- C97: the parameter called "norm" of the gammapy models changes nothing -/
theorem C97_norm_violated (n_e : Dist) (targets : List String) (ssa : Bool) (gamma : List ℝ) (energy s : ℝ) (kwargs : Pars) :
    gammapySSC k distance n_e ssa gamma energy (raise [plain .scale] s kwargs)
        = gammapySSC k distance n_e ssa gamma energy kwargs
      ∧ gammapyEC k distance n_e targets ssa gamma energy (raise [plain .scale] s kwargs)
        = gammapyEC k distance n_e targets ssa gamma energy kwargs := by
  have hd : ∀ m : Name, m ≠ plain .scale → (raise [plain .scale] s kwargs).lookup m = kwargs.lookup m :=
    fun m hm => raise_other s (by simpa using hm) kwargs
  have hs : sortSpectral (spectralNames n_e) (raise [plain .scale] s kwargs) = sortSpectral (spectralNames n_e) kwargs := by
    cases n_e <;> simp only [spectralNames, pars_powerLaw, pars_broken, pars_logParabola, pars_ecpl, pars_ecbpl, pars_interp,
      pars_empty, List.map_cons, List.map_nil, sortSpectral, List.mapM_cons, List.mapM_nil,
      hd _ (by decide : log10_ .k ≠ _), hd _ (by decide : log10_ .norm ≠ _), hd _ (by decide : plain .p ≠ _),
      hd _ (by decide : plain .p1 ≠ _), hd _ (by decide : plain .p2 ≠ _), hd _ (by decide : plain .q ≠ _),
      hd _ (by decide : log10_ .gamma_c ≠ _), hd _ (by decide : log10_ .gamma_b ≠ _),
      hd _ (by decide : log10_ .gamma_0 ≠ _), hd _ (by decide : log10_ .gamma_min ≠ _),
      hd _ (by decide : log10_ .gamma_max ≠ _)]
  simp only [gammapySSC, gammapyEC, gammapyBLR, gammapyDT, hs, sortEmission, sortJet, sortDisk, sortBLR, sortDT,
    hd _ (by decide : plain .z ≠ _), hd _ (by decide : plain .delta_D ≠ _), hd _ (by decide : log10_ .B ≠ _),
    hd _ (by decide : plain .t_var ≠ _), hd _ (by decide : plain .mu_s ≠ _), hd _ (by decide : log10_ .r ≠ _),
    hd _ (by decide : plain .xi_line ≠ _), hd _ (by decide : plain .lambda_line ≠ _),
    hd _ (by decide : plain .R_line ≠ _), hd _ (by decide : plain .xi_dt ≠ _), hd _ (by decide : plain .T_dt ≠ _),
    hd _ (by decide : plain .R_dt ≠ _), hd _ (by decide : log10_ .L_disk ≠ _), hd _ (by decide : plain .M_BH ≠ _),
    hd _ (by decide : plain .m_dot ≠ _), hd _ (by decide : plain .R_in ≠ _), hd _ (by decide : plain .R_out ≠ _), and_self]

/-- parameters of an EC model with both targets -/
noncomputable def demoPars : Pars :=
  [(log10_ .k, 0), (plain .p, 2), (log10_ .gamma_min, 1), (log10_ .gamma_max, 5), (plain .z, 1), (plain .delta_D, 10),
    (log10_ .B, -1), (plain .t_var, 100), (plain .mu_s, 1), (log10_ .r, 17), (log10_ .L_disk, 45), (plain .M_BH, 1),
    (plain .m_dot, 1), (plain .R_in, 6), (plain .R_out, 100), (plain .xi_line, 1 / 10), (plain .lambda_line, 1215),
    (plain .R_line, 100), (plain .xi_dt, 1 / 2), (plain .T_dt, 1000), (plain .R_dt, 1000), (plain .scale, 1)]

theorem lookup_step (n m : Name) (v : ℝ) (l : Pars) :
    List.lookup n ((m, v) :: l) = if n = m then some v else List.lookup n l := by
  rw [List.lookup_cons]
  by_cases h : n = m
  · simp [h]
  · rw [beq_false_of_ne h, if_neg h]

/-- the models have a value at these parameters, and ten times the electrons give ten times the synchrotron and external
Compton radiation and a hundred times the SSC -/
example (k : Consts) (distance : ℝ → ℝ) (gamma : List ℝ) (energy : ℝ) : ∃ synch ssc thermal ec,
    gammapyEC k distance (.powerLaw 1 2 10 1000) ["blr", "dt"] false gamma energy demoPars = some (synch + ssc + thermal + ec)
      ∧ gammapyEC k distance (.powerLaw 1 2 10 1000) ["blr", "dt"] false gamma energy (raise disk 0 (raise density 1 demoPars))
        = some ((10 : ℝ) ^ (1 : ℝ) * synch + ((10 : ℝ) ^ (1 : ℝ)) ^ 2 * ssc + (10 : ℝ) ^ (0 : ℝ) * thermal
          + (10 : ℝ) ^ (1 : ℝ) * (10 : ℝ) ^ (0 : ℝ) * ec) := by
  have h : ∃ x, gammapyEC k distance (.powerLaw 1 2 10 1000) ["blr", "dt"] false gamma energy demoPars = some x := by
    simp [gammapyEC, gammapyBLR, gammapyDT, spectralNames, sortSpectral, sortEmission, sortJet, sortDisk, sortBLR, sortDT,
      demoPars, lookup_step, plain, log10_, withParameters]
  obtain ⟨x, h⟩ := h
  obtain ⟨a, b, c, d, h1, h2⟩ := C97_ec _ _ _ h
  exact ⟨a, b, c, d, by rw [h, h1], h2 1 0⟩

end Verif.Fit
