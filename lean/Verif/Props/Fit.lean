import Verif.Model.Fit
import Verif.Props.Spectra
import Verif.Props.Synchrotron

/-! C57, C58, C60: the fit wrappers -/

namespace Verif.Fit

open MathUtils Spectra Region Targets Classical

/-! ### the spectral parameters of each family -/

section families

variable (k p p1 p2 q gb gc g0 norm a b : ℝ) (f df : ℝ → ℝ)

@[simp] theorem pars_powerLaw : spectralParameters (.powerLaw k p a b)
    = [(log10_ .k, log10 k), (plain .p, p), (log10_ .gamma_min, log10 a), (log10_ .gamma_max, log10 b)] := rfl

@[simp] theorem pars_broken : spectralParameters (.broken k p1 p2 gb a b)
    = [(log10_ .k, log10 k), (plain .p1, p1), (plain .p2, p2), (log10_ .gamma_b, log10 gb),
      (log10_ .gamma_min, log10 a), (log10_ .gamma_max, log10 b)] := rfl

@[simp] theorem pars_logParabola : spectralParameters (.logParabola k p q g0 a b)
    = [(log10_ .k, log10 k), (plain .p, p), (plain .q, q), (log10_ .gamma_0, log10 g0),
      (log10_ .gamma_min, log10 a), (log10_ .gamma_max, log10 b)] := rfl

@[simp] theorem pars_ecpl : spectralParameters (.ecpl k p gc a b)
    = [(log10_ .k, log10 k), (plain .p, p), (log10_ .gamma_c, log10 gc),
      (log10_ .gamma_min, log10 a), (log10_ .gamma_max, log10 b)] := rfl

@[simp] theorem pars_ecbpl : spectralParameters (.ecbpl k p1 p2 gc gb a b)
    = [(log10_ .k, log10 k), (plain .p1, p1), (plain .p2, p2), (log10_ .gamma_c, log10 gc),
      (log10_ .gamma_b, log10 gb), (log10_ .gamma_min, log10 a), (log10_ .gamma_max, log10 b)] := rfl

@[simp] theorem pars_interp : spectralParameters (.interp f df norm a b)
    = [(log10_ .norm, log10 norm), (log10_ .gamma_min, log10 a), (log10_ .gamma_max, log10 b)] := rfl

@[simp] theorem pars_empty : spectralParameters (.empty a b)
    = [(log10_ .gamma_min, log10 a), (log10_ .gamma_max, log10 b)] := rfl

end families

/-! ### lemmas on lookups -/

theorem lookup_if (m n : Name) (v : ℝ) (l : Pars) :
    List.lookup m ((n, v) :: l) = if m = n then some v else l.lookup m := by
  rw [List.lookup_cons]
  by_cases h : m = n
  · simp [h]
  · rw [if_neg h, show (m == n) = false by simpa using h]

theorem lookup_append_left {l₁ : Pars} {n : Name} (h : n ∉ l₁.map Prod.fst) (l₂ : Pars) :
    (l₁ ++ l₂).lookup n = l₂.lookup n := by
  induction l₁ with
  | nil => rfl
  | cons a l ih =>
    rw [List.map_cons, List.mem_cons] at h
    push Not at h
    rw [List.cons_append, List.lookup_cons, show (n == a.1) = false by simpa using h.1]
    exact ih h.2

theorem spectralNames_spectral (d : Dist) {n : Name} (h : n ∈ spectralNames d) : n.base ∈ keyOrder := by
  revert n
  cases d <;> simp [spectralNames, keyOrder, plain, log10_]

theorem not_spectral (d : Dist) {n : Name} (h : n.base ∉ keyOrder) : n ∉ spectralNames d :=
  fun hn => h (spectralNames_spectral d hn)

theorem spectralNames_nodup (d : Dist) : (spectralNames d).Nodup := by
  cases d <;> simp [spectralNames, plain, log10_]

/-- the value a parameter stands for: the parameters called "log10_..." are exponents of 10 -/
noncomputable def meaning (n : Name) (v : ℝ) : ℝ := if n.log then (10 : ℝ) ^ v else v

theorem sortSpectral_zip {names : List Name} (hd : names.Nodup) {vals : List ℝ} (hl : vals.length = names.length)
    (rest : Pars) : sortSpectral names (names.zip vals ++ rest) = some (List.zipWith meaning names vals) := by
  unfold sortSpectral
  induction names generalizing vals rest with
  | nil => simp
  | cons n names ih =>
    match vals, hl with
    | v :: vals, hl =>
      have hl : vals.length = names.length := by simpa using hl
      rw [List.nodup_cons] at hd
      rw [List.mapM_cons]
      have e : (names.mapM fun key => (((n :: names).zip (v :: vals) ++ rest).lookup key).map fun v =>
          if key.log then (10 : ℝ) ^ v else v) = some (List.zipWith meaning names vals) := by
        rw [← ih hd.2 hl rest]
        have : ∀ l : List Name, n ∉ l → (l.mapM fun key => (((n :: names).zip (v :: vals) ++ rest).lookup key).map
            fun v => if key.log then (10 : ℝ) ^ v else v)
            = l.mapM fun key => ((names.zip vals ++ rest).lookup key).map fun v =>
              if key.log then (10 : ℝ) ^ v else v := by
          intro l
          induction l with
          | nil => intro _; rfl
          | cons a l il =>
            intro hm
            rw [List.mem_cons] at hm
            push Not at hm
            rw [List.mapM_cons, List.mapM_cons, il hm.2]
            have : (a == n) = false := by simpa using Ne.symm hm.1
            rw [List.zip_cons_cons, List.cons_append, List.lookup_cons, this]
        exact this names hd.1
      rw [e]
      simp [meaning]

/-! ### C57 -/

/-- what the code evaluates with the arguments `args` is the spectrum of the object `withParameters` gives -/
theorem withParameters_evaluate (d : Dist) {args : List ℝ} {n : Dist} (h : withParameters d args = some n) (g : ℝ) :
    d.evaluateArgs g args = some (n.call g) := by
  unfold withParameters at h
  split at h <;> first | (cases h; rfl) | contradiction

/-- the same for the self-absorption integrand -/
theorem withParameters_ssa {d : Dist} (hn : d.NonEmpty) {args : List ℝ} {n : Dist} (h : withParameters d args = some n)
    (g : ℝ) : d.ssaArgs g args = some (n.ssa g) := by
  unfold withParameters at h
  split at h <;> first | (cases h; rfl) | exact hn.elim | contradiction

theorem withParameters_self (d : Dist) : withParameters d d.parameters = some d := by cases d <;> rfl

/-- C57: the gammapy wrapper turns the initial values of the fit parameters, whatever the other parameters are, back
into the arguments of `evaluate` -/
theorem C57_gammapy {d : Dist} (hp : d.Positive) (hn : d.NonEmpty) (hmax : 0 < d.gmax) (rest : Pars) :
    sortSpectral (spectralNames d) (spectralParameters d ++ rest) = some d.parameters := by
  have e : spectralParameters d = (spectralNames d).zip ((spectralParameters d).map Prod.snd) := by
    simp [spectralNames, List.zip_map']
  rw [e, sortSpectral_zip (spectralNames_nodup d) (by simp [spectralNames])]
  congr 1
  cases d <;> simp only [Dist.Positive, Dist.NonEmpty, Dist.gmax] at hp hn hmax <;>
    simp [spectralNames, plain, log10_, meaning,
      Dist.parameters, ten_pow_log10, hp, hmax]

/-- C57: both wrappers read every list of values of the spectral parameters alike -/
theorem C57_agree {d : Dist} (hn : d.NonEmpty) {vals : List ℝ} (hl : vals.length = (spectralNames d).length)
    (rest : Pars) : sortSpectral (spectralNames d) ((spectralNames d).zip vals ++ rest) = scaleSpectral d vals := by
  rw [sortSpectral_zip (spectralNames_nodup d) hl]
  cases d <;> simp [spectralNames, plain, log10_]
    at hl ⊢
  case powerLaw =>
    match vals, hl with
    | [_, _, _, _], _ => simp [scaleSpectral, scaleAt, scaleEnd, meaning]
  case broken =>
    match vals, hl with
    | [_, _, _, _, _, _], _ => simp [scaleSpectral, scaleAt, scaleEnd, meaning]
  case logParabola =>
    match vals, hl with
    | [_, _, _, _, _, _], _ => simp [scaleSpectral, scaleAt, scaleEnd, meaning]
  case ecpl =>
    match vals, hl with
    | [_, _, _, _, _], _ => simp [scaleSpectral, scaleAt, scaleEnd, meaning]
  case ecbpl =>
    match vals, hl with
    | [_, _, _, _, _, _, _], _ => simp [scaleSpectral, scaleAt, scaleEnd, meaning]
  case interp =>
    match vals, hl with
    | [_, _, _], _ => simp [scaleSpectral, scaleAt, meaning]
  case empty => exact hn.elim

/-- C57: the sherpa wrapper turns the initial values back into the arguments of `evaluate` -/
theorem C57_sherpa {d : Dist} (hp : d.Positive) (hn : d.NonEmpty) (hmax : 0 < d.gmax) :
    scaleSpectral d ((spectralParameters d).map Prod.snd) = some d.parameters := by
  rw [← C57_agree hn (by simp [spectralNames]) [], ← C57_gammapy hp hn hmax []]
  simp [spectralNames, List.zip_map']

/-- C57: with the initial values the spectrum of the fit model is the spectrum of the distribution -/
theorem C57_spectrum {d : Dist} (hp : d.Positive) (hn : d.NonEmpty) (hmax : 0 < d.gmax) (g : ℝ) :
    (scaleSpectral d ((spectralParameters d).map Prod.snd)).bind (d.evaluateArgs g) = some (d.call g)
    ∧ (sortSpectral (spectralNames d) (spectralParameters d)).bind (d.evaluateArgs g) = some (d.call g) := by
  have h := C57_gammapy hp hn hmax []
  rw [List.append_nil] at h
  rw [C57_sherpa hp hn hmax, h]
  exact ⟨C30_call d g, C30_call d g⟩

/-- finding: the sherpa wrapper cannot scale the parameters of an `EmptyDistribution` -/
theorem C57_empty (a b : ℝ) (vals : List ℝ) : scaleSpectral (.empty a b) vals = none := rfl

example : (Dist.ecbpl 2 2 3 1000 100 10 10000).Positive ∧ (Dist.ecbpl 2 2 3 1000 100 10 10000).NonEmpty
    ∧ 0 < (Dist.ecbpl 2 2 3 1000 100 10 10000).gmax := by
  norm_num [Dist.Positive, Dist.NonEmpty, Dist.gmax]

/-! ### C58 -/

theorem zip_fst_subset {names : List Name} {vals : List ℝ} {n : Name} (h : n ∉ names) :
    n ∉ (names.zip vals).map Prod.fst := by
  intro hm
  obtain ⟨q, hq, rfl⟩ := List.mem_map.1 hm
  exact h (List.of_mem_zip hq).1

/-- parameters that are not spectral are found behind the spectral ones -/
theorem lookup_rest (d : Dist) (sv : List ℝ) {n : Name} (h : n.base ∉ keyOrder) (rest : Pars) :
    ((spectralNames d).zip sv ++ rest).lookup n = rest.lookup n :=
  lookup_append_left (zip_fst_subset (not_spectral d h)) rest

section rest

variable (k : Consts) (distance : ℝ → ℝ) (d : Dist) (sv : List ℝ) (rest : Pars)

theorem sortEmission_rest : sortEmission k distance ((spectralNames d).zip sv ++ rest)
    = sortEmission k distance rest := by
  simp only [sortEmission]
  repeat rw [lookup_rest d sv (by simp [plain, log10_, keyOrder])]

theorem sortJet_rest : sortJet ((spectralNames d).zip sv ++ rest) = sortJet rest := by
  simp only [sortJet]
  repeat rw [lookup_rest d sv (by simp [plain, log10_, keyOrder])]

theorem sortDisk_rest : sortDisk ((spectralNames d).zip sv ++ rest) = sortDisk rest := by
  simp only [sortDisk]
  repeat rw [lookup_rest d sv (by simp [plain, log10_, keyOrder])]

theorem sortBLR_rest : sortBLR k ((spectralNames d).zip sv ++ rest) = sortBLR k rest := by
  simp only [sortBLR]
  repeat rw [lookup_rest d sv (by simp [plain, keyOrder])]

theorem sortDT_rest : sortDT k ((spectralNames d).zip sv ++ rest) = sortDT k rest := by
  simp only [sortDT]
  repeat rw [lookup_rest d sv (by simp [plain, keyOrder])]

end rest

theorem unpack_append (a : List ℝ) {b : List ℝ} {n : ℕ} (h : b.length = n) : unpack n (a ++ b) = some (a, b) := by
  subst h
  simp [unpack]

/-- every list of as many values as there are spectral parameters gives a spectrum -/
theorem scale_total {d : Dist} (hn : d.NonEmpty) {vals : List ℝ} (hl : vals.length = (spectralNames d).length) :
    ∃ args n, scaleSpectral d vals = some args ∧ withParameters d args = some n := by
  have h : ∃ n, withParameters d (List.zipWith meaning (spectralNames d) vals) = some n := by
    cases d <;> simp [spectralNames] at hl ⊢
    case powerLaw =>
      match vals, hl with
      | [_, _, _, _], _ => exact ⟨_, rfl⟩
    case broken =>
      match vals, hl with
      | [_, _, _, _, _, _], _ => exact ⟨_, rfl⟩
    case logParabola =>
      match vals, hl with
      | [_, _, _, _, _, _], _ => exact ⟨_, rfl⟩
    case ecpl =>
      match vals, hl with
      | [_, _, _, _, _], _ => exact ⟨_, rfl⟩
    case ecbpl =>
      match vals, hl with
      | [_, _, _, _, _, _, _], _ => exact ⟨_, rfl⟩
    case interp =>
      match vals, hl with
      | [_, _, _], _ => exact ⟨_, rfl⟩
    case empty => exact hn.elim
  obtain ⟨n, h⟩ := h
  rw [← C57_agree hn hl [], sortSpectral_zip (spectralNames_nodup d) hl]
  exact ⟨_, n, rfl, h⟩

/-- the values, split at the end of the spectral ones -/
theorem split_vals {d : Dist} {rest : Pars} {vals : List ℝ} (hl : vals.length = (spectralParameters d ++ rest).length) :
    ∃ sv tv : List ℝ, vals = sv ++ tv ∧ sv.length = (spectralNames d).length ∧ tv.length = rest.length := by
  refine ⟨vals.take (spectralNames d).length, vals.drop (spectralNames d).length, (List.take_append_drop _ _).symm,
    ?_, ?_⟩
  · rw [List.length_take]
    simp [spectralNames] at hl ⊢
    omega
  · rw [List.length_drop]
    simp [spectralNames] at hl ⊢
    omega

theorem zip_split {d : Dist} {rest : Pars} {sv tv : List ℝ} (h : sv.length = (spectralNames d).length) :
    ((spectralParameters d ++ rest).map Prod.fst).zip (sv ++ tv)
      = (spectralNames d).zip sv ++ (rest.map Prod.fst).zip tv := by
  rw [List.map_append]
  exact List.zip_append h.symm

/-- C58, the SSC models: for all values of the parameters, whatever the value of gammapy's extra parameter "norm", the
gammapy model is the sherpa model divided by the energy squared -/
theorem C58_ssc (k : Consts) (distance : ℝ → ℝ) {d : Dist} (hn : d.NonEmpty) (ssa : Bool) (gamma : List ℝ) (E : ℝ)
    {vals : List ℝ} (hl : vals.length = (sherpaSSCParameters d).length) (norm : ℝ) :
    ∃ sed, sherpaSSC k distance d ssa gamma E vals = some sed
      ∧ gammapySSC k distance d ssa gamma E (((sherpaSSCParameters d).map Prod.fst).zip vals ++ [(plain .scale, norm)])
        = some (sed / E ^ 2) := by
  obtain ⟨sv, tv, rfl, h1, h2⟩ := split_vals hl
  obtain ⟨args, n, h3, h4⟩ := scale_total hn h1
  match tv, h2 with
  | [z, delta_D, log10_B, t_var], _ =>
    rw [sherpaSSCParameters, zip_split h1, List.append_assoc]
    simp only [sherpaSSC, gammapySSC]
    rw [unpack_append (n := 4) sv rfl, C57_agree hn h1, h3, sortEmission_rest]
    simp [sortEmission, emissionParameters, lookup_if, plain, log10_, h3, h4, synchPlusSSC]

/-- the parameters of the EC models behind the spectral ones -/
noncomputable def ecRest (targets : List String) : Pars := emissionParameters .ec ++ targetsParameters targets

/-- the target lists that the documentation of the models names -/
def Documented (targets : List String) : Prop := targets = ["blr"] ∨ targets = ["dt"] ∨ targets = ["blr", "dt"]

/-- C58, the EC models: for the documented target lists and all values of the parameters, whatever the value of gammapy's
extra parameter "norm", the gammapy model is the sherpa model divided by the energy squared.  The full statement is for
all target lists. -/
theorem C58_ec_partial (k : Consts) (distance : ℝ → ℝ) {d : Dist} (hn : d.NonEmpty) {targets : List String}
    (ht : Documented targets) (ssa : Bool) (gamma : List ℝ) (E : ℝ)
    {vals : List ℝ} (hl : vals.length = (sherpaECParameters d targets).length) (norm : ℝ) :
    ∃ sed, sherpaEC k distance d targets ssa gamma E vals = some (some sed)
      ∧ gammapyEC k distance d targets ssa gamma E
        (((sherpaECParameters d targets).map Prod.fst).zip vals ++ [(plain .scale, norm)]) = some (sed / E ^ 2) := by
  obtain ⟨sv, tv, rfl, h1, h2⟩ := split_vals hl
  obtain ⟨args, n, h3, h4⟩ := scale_total hn h1
  rw [sherpaECParameters, zip_split h1, List.append_assoc]
  simp only [gammapyEC, gammapyBLR, gammapyDT]
  rw [C57_agree hn h1, h3, sortEmission_rest, sortJet_rest, sortDisk_rest, sortBLR_rest, sortDT_rest]
  rcases ht with rfl | rfl | rfl
  · match tv, h2 with
    | [z, delta_D, log10_B, t_var, mu_s, log10_r, log10_L_disk, M_BH, m_dot, R_in, R_out, xi_line, lambda_line,
        R_line], _ =>
      simp only [sherpaEC, sherpaBLR]
      rw [unpack_append (n := 14) sv rfl]
      simp [sortEmission, sortJet, sortDisk, sortBLR, emissionParameters, targetsParameters, lookup_if, plain,
        log10_, h3, h4, synchPlusSSC]
  · match tv, h2 with
    | [z, delta_D, log10_B, t_var, mu_s, log10_r, log10_L_disk, M_BH, m_dot, R_in, R_out, xi_dt, T_dt, R_dt], _ =>
      simp only [sherpaEC, sherpaDT]
      rw [unpack_append (n := 14) sv rfl]
      simp [sortEmission, sortJet, sortDisk, sortDT, emissionParameters, targetsParameters, lookup_if, plain,
        log10_, h3, h4, synchPlusSSC]
      ring_nf
  · match tv, h2 with
    | [z, delta_D, log10_B, t_var, mu_s, log10_r, log10_L_disk, M_BH, m_dot, R_in, R_out, xi_line, lambda_line,
        R_line, xi_dt, T_dt, R_dt], _ =>
      simp only [sherpaEC, sherpaBLRDT]
      rw [unpack_append (n := 17) sv rfl]
      simp [sortEmission, sortJet, sortDisk, sortBLR, sortDT, emissionParameters, targetsParameters, lookup_if, plain,
        log10_, h3, h4, synchPlusSSC]
      ring_nf

/-- finding: for every other target list `calc` of the sherpa model returns None, whatever the parameters -/
theorem C58_sherpa_none (k : Consts) (distance : ℝ → ℝ) (d : Dist) {targets : List String}
    (ht : ¬ Documented targets) (ssa : Bool) (gamma : List ℝ) (E : ℝ) (vals : List ℝ) :
    sherpaEC k distance d targets ssa gamma E vals = some none := by
  unfold Documented at ht
  push Not at ht
  simp [sherpaEC, ht]

/-- the gammapy model depends on the target list only through the presence of the two names: order, repetitions and
unknown names make no difference, neither in the parameters nor in the values -/
theorem C58_gammapy_members (k : Consts) (distance : ℝ → ℝ) (d : Dist) {t₁ t₂ : List String}
    (hb : "blr" ∈ t₁ ↔ "blr" ∈ t₂) (hd : "dt" ∈ t₁ ↔ "dt" ∈ t₂) (ssa : Bool) (gamma : List ℝ) (E : ℝ) (kwargs : Pars) :
    gammapyECParameters d t₁ = gammapyECParameters d t₂
    ∧ gammapyEC k distance d t₁ ssa gamma E kwargs = gammapyEC k distance d t₂ ssa gamma E kwargs := by
  simp only [gammapyECParameters, targetsParameters, gammapyEC, gammapyBLR, gammapyDT, hb, hd, and_self]

/-- C58 fails: with the targets in the other order the gammapy model has a value for all values of the parameters, the
one it has in the documented order, and the sherpa model has none -/
theorem C58_violated (k : Consts) (distance : ℝ → ℝ) {d : Dist} (hn : d.NonEmpty) (ssa : Bool) (gamma : List ℝ) (E : ℝ)
    {vals : List ℝ} (hl : vals.length = (sherpaECParameters d ["dt", "blr"]).length) (norm : ℝ) :
    sherpaEC k distance d ["dt", "blr"] ssa gamma E vals = some none
    ∧ ∃ sed, sherpaEC k distance d ["blr", "dt"] ssa gamma E vals = some (some sed)
      ∧ gammapyEC k distance d ["dt", "blr"] ssa gamma E
        (((sherpaECParameters d ["dt", "blr"]).map Prod.fst).zip vals ++ [(plain .scale, norm)])
        = some (sed / E ^ 2) := by
  have e : sherpaECParameters d ["dt", "blr"] = sherpaECParameters d ["blr", "dt"] := by
    simp [sherpaECParameters, targetsParameters]
  refine ⟨C58_sherpa_none k distance d (by simp [Documented]) ssa gamma E vals, ?_⟩
  rw [e] at hl ⊢
  obtain ⟨sed, h1, h2⟩ := C58_ec_partial k distance hn (targets := ["blr", "dt"]) (.inr (.inr rfl)) ssa gamma E hl norm
  exact ⟨sed, h1, by rw [(C58_gammapy_members k distance d (t₂ := ["blr", "dt"]) (by simp) (by simp) ssa gamma E _).2, h2]⟩

/-- C58: the constructors of models.py accept the two names and no others -/
theorem C58_backend (backend : String) : (selectBackend backend).isSome ↔ backend = "gammapy" ∨ backend = "sherpa" := by
  unfold selectBackend
  by_cases h1 : backend = "sherpa" <;> by_cases h2 : backend = "gammapy" <;> simp [h1, h2]

example : (List.replicate 21 (1 : ℝ)).length = (sherpaECParameters (.powerLaw 2 2 10 10000) ["blr", "dt"]).length := by
  simp [sherpaECParameters, emissionParameters, targetsParameters]

/-! ### C60 -/

theorem setPar_lookup {n : Name} {v : ℝ} {pars pars' : Pars} (h : setPar n v pars = some pars') (m : Name) :
    pars'.lookup m = if m = n then some v else pars.lookup m := by
  unfold setPar at h
  split_ifs at h with hm
  cases h
  have key : ∀ l : Pars, (l.map fun q => if q.1 = n then (q.1, v) else q).lookup m
      = if m = n then (l.lookup m).map fun _ => v else l.lookup m := by
    intro l
    induction l with
    | nil => simp
    | cons a l ih =>
      obtain ⟨an, av⟩ := a
      rw [List.map_cons]
      by_cases h1 : an = n
      · subst h1
        rw [if_pos rfl, lookup_if, lookup_if, ih]
        by_cases h2 : m = an <;> simp [h2]
      · rw [if_neg h1, lookup_if, lookup_if, ih]
        by_cases h2 : m = an
        · subst h2
          simp [h1]
        · simp [h2]
  rw [key]
  by_cases h1 : m = n
  · subst h1
    rw [if_pos rfl, if_pos rfl]
    have : pars.lookup m ≠ none := by
      rw [Ne, List.lookup_eq_none_iff]
      push Not
      obtain ⟨q, hq, hn⟩ := List.mem_map.1 hm
      exact ⟨q, hq, by simp [hn]⟩
    obtain ⟨w, hw⟩ := Option.ne_none_iff_exists'.1 this
    rw [hw]
    rfl
  · rw [if_neg h1, if_neg h1]

theorem setPar_keys {n : Name} {v : ℝ} {pars pars' : Pars} (h : setPar n v pars = some pars') :
    pars'.map Prod.fst = pars.map Prod.fst := by
  unfold setPar at h
  split_ifs at h
  cases h
  rw [List.map_map]
  apply List.map_congr_left
  intro q _
  simp only [Function.comp_apply]
  split_ifs <;> rfl

theorem setPar_total {n : Name} {pars : Pars} (h : n ∈ pars.map Prod.fst) (v : ℝ) : ∃ pars', setPar n v pars = some pars' :=
  ⟨_, if_pos h⟩

/-- the assignments in order, a later one over an earlier one -/
def assigned (m : Name) (l : List (Name × ℝ)) (before : Option ℝ) : Option ℝ :=
  l.foldl (fun acc q => if m = q.1 then some q.2 else acc) before

/-- a sequence of assignments to parameters that exist -/
theorem setAll (l : List (Name × ℝ)) : ∀ pars : Pars, (∀ q ∈ l, q.1 ∈ pars.map Prod.fst) →
    ∃ pars', l.foldlM (fun p q => setPar q.1 q.2 p) pars = some pars' ∧ pars'.map Prod.fst = pars.map Prod.fst
      ∧ ∀ m, pars'.lookup m = assigned m l (pars.lookup m) := by
  induction l with
  | nil => exact fun pars _ => ⟨pars, rfl, rfl, fun _ => rfl⟩
  | cons q l ih =>
    intro pars h
    obtain ⟨p1, h1⟩ := setPar_total (h q (by simp)) q.2
    obtain ⟨p2, h2, h3, h4⟩ := ih p1 (by
      rw [setPar_keys h1]
      exact fun q hq => h q (List.mem_cons_of_mem _ hq))
    refine ⟨p2, ?_, h3.trans (setPar_keys h1), fun m => ?_⟩
    · rw [List.foldlM_cons, h1]
      exact h2
    · rw [h4 m, setPar_lookup h1 m]
      rfl

/-- what is assigned from a blob, SSC -/
noncomputable def blobItems (k : Consts) (b : Blob) : List (Name × ℝ) :=
  [(plain .z, b.z), (plain .delta_D, b.delta_D), (log10_ .B, log10 b.B), (plain .t_var, b.t_var k)]

theorem setFromBlobSSC_eq (k : Consts) (b : Blob) (pars : Pars) :
    setFromBlobSSC k b pars = (blobItems k b).foldlM (fun p q => setPar q.1 q.2 p) pars := by
  simp [setFromBlobSSC, blobItems]

theorem setFromBlobEC_eq (k : Consts) (b : Blob) (r : ℝ) (pars : Pars) :
    setFromBlobEC k b r pars = (blobItems k b ++ [(plain .mu_s, b.mu_s), (log10_ .r, log10 r)]).foldlM
      (fun p q => setPar q.1 q.2 p) pars := by
  simp [setFromBlobEC, blobItems]

/-- what is assigned from the targets -/
noncomputable def targetItems (k : Consts) (disk : SSDisk) (blr : Option Line) (dt : Option DT) : List (Name × ℝ) :=
  [(log10_ .L_disk, log10 disk.L_disk), (plain .M_BH, disk.M_BH), (plain .m_dot, disk.m_dot k),
    (plain .R_in, disk.R_in), (plain .R_out, disk.R_out)]
  ++ ((match blr with
    | some t => [(plain .xi_line, t.blr.xi_line), (plain .lambda_line, t.lambda_line), (plain .R_line, t.blr.R_line)]
    | none => [])
  ++ (match dt with
    | some t => [(plain .xi_dt, t.xi_dt), (plain .T_dt, t.T_dt), (plain .R_dt, t.R_dt)]
    | none => []))

theorem setFromTargets_eq (k : Consts) (disk : SSDisk) (blr : Option Line) (dt : Option DT) (pars : Pars) :
    setFromTargets k disk blr dt pars = (targetItems k disk blr dt).foldlM (fun p q => setPar q.1 q.2 p) pars := by
  cases blr <;> cases dt <;>
    simp [setFromTargets, setDisk, setBLR, setDT, targetItems, Option.bind_assoc]

theorem sortSpectral_congr {names : List Name} {p₁ p₂ : Pars} (h : ∀ n ∈ names, p₁.lookup n = p₂.lookup n) :
    sortSpectral names p₁ = sortSpectral names p₂ := by
  unfold sortSpectral
  induction names with
  | nil => rfl
  | cons a l ih =>
    rw [List.mapM_cons, List.mapM_cons, h a (by simp), ih fun n hn => h n (by simp [hn])]

/-- the spectral parameters keep their initial values through assignments to others -/
theorem spectral_kept {d : Dist} (hp : d.Positive) (hn : d.NonEmpty) (hmax : 0 < d.gmax) {rest pars : Pars}
    {l : List (Name × ℝ)} (hl : ∀ q ∈ l, q.1.base ∉ keyOrder)
    (h : ∀ m, pars.lookup m = assigned m l ((spectralParameters d ++ rest).lookup m)) :
    sortSpectral (spectralNames d) pars = some d.parameters := by
  rw [← C57_gammapy hp hn hmax rest]
  apply sortSpectral_congr
  intro n hn
  rw [h n]
  have hb := spectralNames_spectral d hn
  have : ∀ (l : List (Name × ℝ)) (o : Option ℝ), (∀ q ∈ l, q.1.base ∉ keyOrder) → assigned n l o = o := by
    intro l
    induction l with
    | nil => exact fun _ _ => rfl
    | cons a l ih =>
      intro o hl
      unfold assigned
      rw [List.foldl_cons, if_neg (by rintro rfl; exact hl a (by simp) hb)]
      exact ih o fun q hq => hl q (by simp [hq])
  exact this l _ hl

/-- a blob that can be handed to the models: positive field, distribution with positive scales, physical Doppler
factor, radius and redshift -/
structure Settable (k : Consts) (b : Blob) : Prop where
  hc : k.c ≠ 0
  hB : 0 < b.B
  hz : 1 + b.z ≠ 0
  hD : b.delta_D ≠ 0
  hn : b.n_e.NonEmpty
  hp : b.n_e.Positive
  hmax : 0 < b.n_e.gmax

/-- C60: the radius computed from the variability time scale is the radius of the blob -/
theorem C60_radius {k : Consts} {b : Blob} (h : Settable k b) :
    k.c * b.t_var k * b.delta_D / (1 + b.z) = b.R_b := by
  have := h.hc
  have := h.hz
  have := h.hD
  unfold Blob.t_var
  field_simp

theorem lookup_append (l₁ l₂ : Pars) (m : Name) : (l₁ ++ l₂).lookup m = (l₁.lookup m).or (l₂.lookup m) := by
  induction l₁ with
  | nil => rfl
  | cons a l ih =>
    obtain ⟨n, v⟩ := a
    rw [List.cons_append, lookup_if, lookup_if, ih]
    split_ifs <;> simp

theorem assigned_or (m : Name) (l : List (Name × ℝ)) (o x : Option ℝ) :
    (assigned m l o).or x = assigned m l (o.or x) := by
  induction l generalizing o with
  | nil => rfl
  | cons a l ih =>
    unfold assigned at ih ⊢
    rw [List.foldl_cons, List.foldl_cons, ih]
    split_ifs <;> simp

/-- the SED of the blob's own synchrotron and SSC emission on the Lorentz factors `gamma`, with luminosity distance
`d_L` -/
noncomputable def blobSSC (k : Consts) (ssa : Bool) (nu : ℝ) (b : Blob) (d_L : ℝ) (gamma : List ℝ) : ℝ :=
  Synchrotron.sedFlux k trapz ssa nu b.z d_L b.delta_D b.B b.R_b b.n_e gamma
    + Compton.sscSed k trapz ssa nu b.z d_L b.delta_D b.B b.R_b b.n_e (afterSynch b.n_e ssa gamma)

theorem blobItems_base (k : Consts) (b : Blob) : ∀ q ∈ blobItems k b, q.1.base ∉ keyOrder := by
  simp [blobItems, plain, log10_, keyOrder]

theorem sortEmission_of {k : Consts} {b : Blob} (h : Settable k b) (distance : ℝ → ℝ) {pars : Pars}
    (h1 : pars.lookup (plain .z) = some b.z) (h2 : pars.lookup (plain .delta_D) = some b.delta_D)
    (h3 : pars.lookup (log10_ .B) = some (log10 b.B)) (h4 : pars.lookup (plain .t_var) = some (b.t_var k)) :
    sortEmission k distance pars = some ⟨b.z, distance b.z, b.delta_D, b.B, b.R_b⟩ := by
  simp only [sortEmission, h1, h2, h3, h4, Option.bind_eq_bind, Option.bind_some, ten_pow_log10 h.hB, C60_radius h]

theorem gammapySSC_of {k : Consts} {b : Blob} (h : Settable k b) (distance : ℝ → ℝ) (ssa : Bool) (gamma : List ℝ) (E : ℝ)
    {rest pars : Pars}
    (hl : ∀ m, pars.lookup m = assigned m (blobItems k b) ((spectralParameters b.n_e ++ rest).lookup m)) :
    gammapySSC k distance b.n_e ssa gamma E pars
      = some (blobSSC k ssa (E / k.h) b (distance b.z) gamma / E ^ 2) := by
  simp only [gammapySSC]
  rw [spectral_kept h.hp h.hn h.hmax (blobItems_base k b) hl, sortEmission_of h distance]
  · simp [withParameters_self, synchPlusSSC, blobSSC]
  all_goals
    rw [hl]
    simp [assigned, blobItems, plain, log10_]

/-- C60: a gammapy SSC model whose parameters are set from a blob has the SED of that blob (with the luminosity distance
of the default cosmology), for every blob -/
theorem C60_gammapy_ssc {k : Consts} {b : Blob} (h : Settable k b) (distance : ℝ → ℝ) (ssa : Bool) (gamma : List ℝ)
    (E : ℝ) : ∃ pars, setFromBlobSSC k b (gammapySSCParameters b.n_e) = some pars
      ∧ gammapySSC k distance b.n_e ssa gamma E pars
        = some (blobSSC k ssa (E / k.h) b (distance b.z) gamma / E ^ 2) := by
  obtain ⟨pars, h1, -, h3⟩ := setAll (blobItems k b) (gammapySSCParameters b.n_e) (by
    simp [blobItems, gammapySSCParameters, emissionParameters, plain, log10_])
  exact ⟨pars, by rw [setFromBlobSSC_eq, h1], gammapySSC_of h distance ssa gamma E h3⟩

theorem zip_unzip (l : Pars) : (l.map Prod.fst).zip (l.map Prod.snd) = l := by simp [List.zip_map']

/-- C60: the same for the sherpa SSC model -/
theorem C60_sherpa_ssc {k : Consts} {b : Blob} (h : Settable k b) (distance : ℝ → ℝ) (ssa : Bool) (gamma : List ℝ)
    {E : ℝ} (hE : E ≠ 0) : ∃ pars, setFromBlobSSC k b (sherpaSSCParameters b.n_e) = some pars
      ∧ sherpaSSC k distance b.n_e ssa gamma E (pars.map Prod.snd)
        = some (blobSSC k ssa (E / k.h) b (distance b.z) gamma) := by
  obtain ⟨pars, h1, h2, h3⟩ := setAll (blobItems k b) (sherpaSSCParameters b.n_e) (by
    simp [blobItems, sherpaSSCParameters, emissionParameters, plain, log10_])
  refine ⟨pars, by rw [setFromBlobSSC_eq, h1], ?_⟩
  have hlen : (pars.map Prod.snd).length = (sherpaSSCParameters b.n_e).length := by
    simpa using congrArg List.length h2
  obtain ⟨sed, h4, h5⟩ := C58_ssc k distance h.hn ssa gamma E hlen 1
  rw [← h2, zip_unzip, gammapySSC_of h distance ssa gamma E
    (rest := emissionParameters .ssc ++ [(plain .scale, 1)])] at h5
  · rw [h4]
    have := Option.some.inj h5
    rw [div_left_inj' (pow_ne_zero 2 hE)] at this
    rw [this]
  · intro m
    rw [lookup_append, h3, assigned_or, ← List.append_assoc, lookup_append (spectralParameters b.n_e ++ _)]
    rfl

/-- the SED of the blob and of the objects that surround it, as the classes `SSDisk`, `RingDustTorus` and
`ExternalCompton` compute it -/
noncomputable def objectsSED (k : Consts) (ssa : Bool) (nu : ℝ) (b : Blob) (r : ℝ) (disk : SSDisk) (blr : Option Line)
    (dt : Option DT) (gamma : List ℝ) : ℝ :=
  blobSSC k ssa nu b b.d_L gamma + disk.sedFlux k nu b.z b.d_L 1
    + (match blr with
      | some t => ((Compton.EC.new k b (.blr t.blr) r trapz).sedFlux k nu).getD 0
      | none => 0)
    + (match dt with
      | some t => ((Compton.EC.new k b (.dt t) r trapz).sedFlux k nu).getD 0 + t.sedFlux k nu b.z b.d_L
      | none => 0)

/-- objects that can be handed to the EC models: the targets are lit by the disk of the model, the line's energy belongs
to its wavelength, the blob is computed with as many Lorentz factors as the models use and with the default cosmology -/
structure Around (k : Consts) (distance : ℝ → ℝ) (b : Blob) (r : ℝ) (disk : SSDisk) (blr : Option Line) (dt : Option DT) :
    Prop where
  hr : 0 < r
  hL : 0 < disk.L_disk
  hblr : ∀ t, blr = some t → t.blr.L_disk = disk.L_disk ∧ t.blr.epsilon_line = lineEnergy k t.lambda_line
  hdt : ∀ t, dt = some t → t.L_disk = disk.L_disk
  hsize : b.gamma_e_size = 300
  hd : b.d_L = distance b.z

theorem gammapyEC_of {k : Consts} {b : Blob} (h : Settable k b) {distance : ℝ → ℝ} {r : ℝ} {disk : SSDisk}
    {blr : Option Line} {dt : Option DT} (ho : Around k distance b r disk blr dt) {targets : List String}
    (hb : "blr" ∈ targets ↔ blr.isSome) (hd : "dt" ∈ targets ↔ dt.isSome) (ssa : Bool) (gamma : List ℝ) (E : ℝ)
    {rest pars : Pars}
    (hl : ∀ m, pars.lookup m = assigned m ((blobItems k b ++ [(plain .mu_s, b.mu_s), (log10_ .r, log10 r)])
      ++ targetItems k disk blr dt) ((spectralParameters b.n_e ++ rest).lookup m)) :
    gammapyEC k distance b.n_e targets ssa gamma E pars
      = some (objectsSED k ssa (E / k.h) b r disk blr dt gamma / E ^ 2) := by
  have hbase : ∀ q ∈ (blobItems k b ++ [(plain .mu_s, b.mu_s), (log10_ .r, log10 r)]) ++ targetItems k disk blr dt,
      q.1.base ∉ keyOrder := by
    cases blr <;> cases dt <;> simp [blobItems, targetItems, plain, log10_, keyOrder]
  have hj : sortJet pars = some (b.mu_s, r) := by
    have h1 : pars.lookup (plain .mu_s) = some b.mu_s := by
      rw [hl]; cases blr <;> cases dt <;> simp [assigned, blobItems, targetItems, plain, log10_]
    have h2 : pars.lookup (log10_ .r) = some (log10 r) := by
      rw [hl]; cases blr <;> cases dt <;> simp [assigned, blobItems, targetItems, plain, log10_]
    simp [sortJet, h1, h2, ten_pow_log10 ho.hr]
  have hk : sortDisk pars = some (disk.L_disk, disk.M_BH, disk.m_dot k, disk.R_in, disk.R_out) := by
    have h1 : pars.lookup (log10_ .L_disk) = some (log10 disk.L_disk) := by
      rw [hl]; cases blr <;> cases dt <;> simp [assigned, blobItems, targetItems, plain, log10_]
    have h2 : pars.lookup (plain .M_BH) = some disk.M_BH := by
      rw [hl]; cases blr <;> cases dt <;> simp [assigned, blobItems, targetItems, plain, log10_]
    have h3 : pars.lookup (plain .m_dot) = some (disk.m_dot k) := by
      rw [hl]; cases blr <;> cases dt <;> simp [assigned, blobItems, targetItems, plain, log10_]
    have h4 : pars.lookup (plain .R_in) = some disk.R_in := by
      rw [hl]; cases blr <;> cases dt <;> simp [assigned, blobItems, targetItems, plain, log10_]
    have h5 : pars.lookup (plain .R_out) = some disk.R_out := by
      rw [hl]; cases blr <;> cases dt <;> simp [assigned, blobItems, targetItems, plain, log10_]
    simp [sortDisk, h1, h2, h3, h4, h5, ten_pow_log10 ho.hL]
  have he : sortEmission k distance pars = some ⟨b.z, b.d_L, b.delta_D, b.B, b.R_b⟩ := by
    rw [ho.hd]
    apply sortEmission_of h
    all_goals
      rw [hl]
      cases blr <;> cases dt <;> simp [assigned, blobItems, targetItems, plain, log10_]
  have hblr : ∀ nu, gammapyBLR k targets nu ⟨b.z, b.d_L, b.delta_D, b.B, b.R_b⟩ b.mu_s r disk.L_disk b.n_e pars
      = some (match blr with
        | some t => ((Compton.EC.new k b (.blr t.blr) r trapz).sedFlux k nu).getD 0
        | none => 0) := by
    intro nu
    unfold gammapyBLR
    cases blr with
    | none => rw [if_neg (by simpa using hb)]
    | some t =>
      rw [if_pos (by simpa using hb)]
      have h1 : pars.lookup (plain .xi_line) = some t.blr.xi_line := by
        rw [hl]; cases dt <;> simp [assigned, blobItems, targetItems, plain, log10_]
      have h2 : pars.lookup (plain .lambda_line) = some t.lambda_line := by
        rw [hl]; cases dt <;> simp [assigned, blobItems, targetItems, plain, log10_]
      have h3 : pars.lookup (plain .R_line) = some t.blr.R_line := by
        rw [hl]; cases dt <;> simp [assigned, blobItems, targetItems, plain, log10_]
      simp [sortBLR, h1, h2, h3, Compton.EC.new, Compton.EC.sedFlux, ho.hblr t rfl, Blob.gamma_e_external_frame, ho.hsize,
        gammaToIntegrate, muToIntegrate, phiToIntegrate]
  have hdt : ∀ nu, gammapyDT k targets nu ⟨b.z, b.d_L, b.delta_D, b.B, b.R_b⟩ b.mu_s r disk.L_disk b.n_e pars
      = some (match dt with
        | some t => ((Compton.EC.new k b (.dt t) r trapz).sedFlux k nu).getD 0 + t.sedFlux k nu b.z b.d_L
        | none => 0) := by
    intro nu
    unfold gammapyDT
    cases dt with
    | none => rw [if_neg (by simpa using hd)]
    | some t =>
      rw [if_pos (by simpa using hd)]
      have h1 : pars.lookup (plain .xi_dt) = some t.xi_dt := by
        rw [hl]; cases blr <;> simp [assigned, blobItems, targetItems, plain, log10_]
      have h2 : pars.lookup (plain .T_dt) = some t.T_dt := by
        rw [hl]; cases blr <;> simp [assigned, blobItems, targetItems, plain, log10_]
      have h3 : pars.lookup (plain .R_dt) = some t.R_dt := by
        rw [hl]; cases blr <;> simp [assigned, blobItems, targetItems, plain, log10_]
      simp [sortDT, h1, h2, h3, Compton.EC.new, Compton.EC.sedFlux, ho.hdt t rfl, Blob.gamma_e_external_frame, ho.hsize,
        gammaToIntegrate, phiToIntegrate, dustEnergy, DT.epsilon_dt, DT.sedFlux]
  simp only [gammapyEC]
  rw [spectral_kept h.hp h.hn h.hmax hbase hl, he, hj, hk]
  simp only [Option.bind_eq_bind, Option.bind_some, withParameters_self, hblr, hdt]
  cases blr <;> cases dt <;> rfl

/-- C60: a gammapy EC model whose parameters are set from a blob, its distance and the targets has the SED of these
objects -/
theorem C60_gammapy_ec {k : Consts} {b : Blob} (h : Settable k b) {distance : ℝ → ℝ} {r : ℝ} {disk : SSDisk}
    {blr : Option Line} {dt : Option DT} (ho : Around k distance b r disk blr dt) {targets : List String}
    (hb : "blr" ∈ targets ↔ blr.isSome) (hd : "dt" ∈ targets ↔ dt.isSome) (ssa : Bool) (gamma : List ℝ) (E : ℝ) :
    ∃ p₁ p₂, setFromBlobEC k b r (gammapyECParameters b.n_e targets) = some p₁
      ∧ setFromTargets k disk blr dt p₁ = some p₂
      ∧ gammapyEC k distance b.n_e targets ssa gamma E p₂
        = some (objectsSED k ssa (E / k.h) b r disk blr dt gamma / E ^ 2) := by
  obtain ⟨p₁, h1, h2, h3⟩ := setAll (blobItems k b ++ [(plain .mu_s, b.mu_s), (log10_ .r, log10 r)])
    (gammapyECParameters b.n_e targets) (by
      simp [blobItems, gammapyECParameters, emissionParameters, plain, log10_])
  obtain ⟨p₂, h4, -, h6⟩ := setAll (targetItems k disk blr dt) p₁ (by
    rw [h2]
    cases blr <;> cases dt <;> simp at hb hd <;>
      simp [targetItems, gammapyECParameters, targetsParameters, plain, log10_, hb, hd])
  refine ⟨p₁, p₂, by rw [setFromBlobEC_eq, h1], by rw [setFromTargets_eq, h4], ?_⟩
  apply gammapyEC_of h ho hb hd ssa gamma E (rest := _)
  intro m
  rw [h6, h3]
  unfold assigned
  rw [List.foldl_append]
  rfl

/-- C60: the same for the sherpa EC model, for the documented target lists -/
theorem C60_sherpa_ec {k : Consts} {b : Blob} (h : Settable k b) {distance : ℝ → ℝ} {r : ℝ} {disk : SSDisk}
    {blr : Option Line} {dt : Option DT} (ho : Around k distance b r disk blr dt) {targets : List String}
    (ht : Documented targets) (hb : "blr" ∈ targets ↔ blr.isSome) (hd : "dt" ∈ targets ↔ dt.isSome) (ssa : Bool)
    (gamma : List ℝ) {E : ℝ} (hE : E ≠ 0) :
    ∃ p₁ p₂, setFromBlobEC k b r (sherpaECParameters b.n_e targets) = some p₁
      ∧ setFromTargets k disk blr dt p₁ = some p₂
      ∧ sherpaEC k distance b.n_e targets ssa gamma E (p₂.map Prod.snd)
        = some (some (objectsSED k ssa (E / k.h) b r disk blr dt gamma)) := by
  obtain ⟨p₁, h1, h2, h3⟩ := setAll (blobItems k b ++ [(plain .mu_s, b.mu_s), (log10_ .r, log10 r)])
    (sherpaECParameters b.n_e targets) (by
      simp [blobItems, sherpaECParameters, emissionParameters, plain, log10_])
  obtain ⟨p₂, h4, h5, h6⟩ := setAll (targetItems k disk blr dt) p₁ (by
    rw [h2]
    cases blr <;> cases dt <;> simp at hb hd <;>
      simp [targetItems, sherpaECParameters, targetsParameters, plain, log10_, hb, hd])
  refine ⟨p₁, p₂, by rw [setFromBlobEC_eq, h1], by rw [setFromTargets_eq, h4], ?_⟩
  have h7 := h5.trans h2
  have hlen : (p₂.map Prod.snd).length = (sherpaECParameters b.n_e targets).length := by
    simpa using congrArg List.length h7
  obtain ⟨sed, h8, h9⟩ := C58_ec_partial k distance h.hn ht ssa gamma E hlen 1
  rw [← h7, zip_unzip, gammapyEC_of h ho hb hd ssa gamma E
    (rest := (emissionParameters .ec ++ targetsParameters targets) ++ [(plain .scale, 1)])] at h9
  · rw [h8]
    have := Option.some.inj h9
    rw [div_left_inj' (pow_ne_zero 2 hE)] at this
    rw [this]
  · intro m
    rw [lookup_append, h6, h3, assigned_or, assigned_or, ← List.append_assoc,
      lookup_append (spectralParameters b.n_e ++ _)]
    conv_rhs => unfold assigned
    rw [List.foldl_append]
    rfl

/-- C60: a line target made by the constructor has the energy of its wavelength -/
theorem C60_line {k : Consts} {L xi R : ℝ} {line : String} {t : BLR} (h : BLR.new k L xi line R = some t) :
    ∃ wavelength, BLR.linesDictionary.lookup line = some wavelength ∧ t.epsilon_line = lineEnergy k wavelength := by
  unfold BLR.new at h
  obtain ⟨w, hw, rfl⟩ := Option.map_eq_some_iff.1 h
  exact ⟨w, hw, rfl⟩

/-- constants for examples -/
def demoConsts : Consts := ⟨1, 1, 1, 1, 1, 1, 1, 1, 1, 1⟩

/-- a blob for examples -/
noncomputable def demoFitBlob : Blob := { Synchrotron.demoBlob with gamma_e_size := 300 }

example : Settable demoConsts demoFitBlob :=
  ⟨by norm_num [demoConsts], by norm_num [demoFitBlob, Synchrotron.demoBlob],
    by norm_num [demoFitBlob, Synchrotron.demoBlob], by norm_num [demoFitBlob, Synchrotron.demoBlob], trivial,
    by norm_num [demoFitBlob, Synchrotron.demoBlob, Dist.Positive],
    by norm_num [demoFitBlob, Synchrotron.demoBlob, Dist.gmax]⟩

example : Around demoConsts (fun _ => 1) demoFitBlob 5 ⟨1, 2, 1 / 12, 6, 100⟩
    (some ⟨⟨2, 1 / 10, lineEnergy demoConsts 1215, 3⟩, 1215⟩) (some ⟨2, 1 / 2, 1000, 50⟩) :=
  ⟨by norm_num, by norm_num, by rintro t ⟨⟩; exact ⟨rfl, rfl⟩, by rintro t ⟨⟩; rfl, rfl, rfl⟩

end Verif.Fit
