import Verif.Props.UnitTargets

/- C103 for the objects of the interface: a change of units of all their attributes changes their results by the factor
of the dimension of the result -/

namespace Verif.UnitSystem

open MathUtils Spectra Geometry Absorption Targets Region

variable {u : Units} {k : Consts}

/-! ### opacity of the photons of the region itself -/

theorem logspace_stretch {c a b : ℝ} (hc : 0 < c) (ha : 0 < a) (hb : 0 < b) (n : ℕ) :
    logspace (log10 (c * a)) (log10 (c * b)) n = (logspace (log10 a) (log10 b) n).map (c * ·) := by
  have h10 : Real.log 10 ≠ 0 := (Real.log_pos (by norm_num)).ne'
  have e : (10 : ℝ) ^ log10 c = c := by
    unfold log10
    rw [Real.rpow_def_of_pos (by norm_num), mul_div_cancel₀ _ h10, Real.exp_log hc]
  have el : ∀ x, 0 < x → log10 (c * x) = log10 c + log10 x := fun x hx => by
    unfold log10
    rw [Real.log_mul hc.ne' hx.ne', add_div]
  unfold logspace linspace
  simp only [List.map_map]
  apply List.map_congr_left
  intro i _
  simp only [Function.comp]
  rw [el a ha, el b hb, show log10 c + log10 a + (i : ℝ) * ((log10 c + log10 b - (log10 c + log10 a)) / ((n : ℝ) - 1))
    = log10 c + (log10 a + (i : ℝ) * ((log10 b - log10 a) / ((n : ℝ) - 1))) by ring, Real.rpow_add (by norm_num), e]

theorem peak (hk : k.Pos) (B g : ℝ) :
    Synchrotron.nuSynchPeak (u.consts k) (u.field B) g (u.consts k).m_e
      = 1 / u.t * Synchrotron.nuSynchPeak k B g k.m_e := by
  have := u.l_pos; have := u.m_pos; have := u.t_pos; have := hk.c; have := hk.m_e
  simp only [Synchrotron.nuSynchPeak, Units.consts, Units.field]
  field_simp

theorem frequencies (hk : k.Pos) {b : Blob} (hB : 0 < b.B) (h0 : 0 < b.n_e.gmin) (h1 : 0 < b.n_e.gmax) {m : ℝ} (hm : 0 < m)
    (n : ℕ) : synchFrequencies (u.consts k) (blobIn u b) n m = (synchFrequencies k b n m).map u.frequency := by
  have := u.t_pos; have := hk.c; have := hk.m_e; have := hk.e
  have hp : ∀ g, 0 < g → 0 < Synchrotron.nuSynchPeak k b.B g k.m_e := fun g hg => by
    unfold Synchrotron.nuSynchPeak; positivity
  have hp0 := hp _ h0
  have hp1 := hp _ h1
  unfold synchFrequencies
  simp only [blobIn, Units.particles, Dist.scale_gmin, Dist.scale_gmax, peak hk]
  rw [mul_assoc, mul_assoc, logspace_stretch (by positivity) (by positivity) (by positivity)]
  apply List.map_congr_left
  intro x _
  unfold Units.frequency
  ring

/-- C103: opacity of the synchrotron photons of the region -/
theorem C103_tau_synch (hk : k.Pos) {b : Blob} (hB : 0 < b.B) (hR : 0 < b.R_b) (hd : 0 < b.d_L) (h0 : 0 < b.n_e.gmin)
    (h1 : 0 < b.n_e.gmax) {m : ℝ} (hm : 0 < m) (nu : ℝ) (n : ℕ) :
    tauSynch (u.consts k) (blobIn u b) (u.frequency nu) n m = tauSynch k b nu n m := by
  have := u.l_pos; have := u.m_pos; have := u.t_pos; have := hk.c; have := hk.m_e
  have e1 : ∀ x, u.frequency x * b.delta_D / (1 + b.z) = u.frequency (x * b.delta_D / (1 + b.z)) := fun x => by
    unfold Units.frequency; ring
  have eg := grid_e (u := u) b
  unfold tauSynch
  rw [frequencies hk hB h0 h1 hm, eg]
  simp only [List.map_map]
  have e2 : ((fun nu => nuToEps (u.consts k) nu (blobIn u b).z (blobIn u b).delta_D) ∘
      (fun nu => nu * (blobIn u b).delta_D / (1 + (blobIn u b).z)) ∘ u.frequency)
      = (fun nu => nuToEps k nu b.z b.delta_D) ∘ fun nu => nu * b.delta_D / (1 + b.z) := by
    funext x
    simp only [Function.comp, blobIn, e1, eps hk]
  have e3 : ((fun nu => Synchrotron.sedFlux (u.consts k) trapz true nu (blobIn u b).z (blobIn u b).d_L (blobIn u b).delta_D
        (blobIn u b).B (blobIn u b).R_b (blobIn u b).n_e b.gamma_e) ∘
      (fun nu => nu * (blobIn u b).delta_D / (1 + (blobIn u b).z)) ∘ u.frequency)
      = u.flux ∘ (fun nu => Synchrotron.sedFlux k trapz true nu b.z b.d_L b.delta_D b.B b.R_b b.n_e b.gamma_e) ∘
        fun nu => nu * b.delta_D / (1 + b.z) := by
    funext x
    simp only [Function.comp, blobIn, e1]
    exact C103_synchrotron hk homogeneous_trapz hB hd _ _ _ _ _ _ _
  rw [e2, e3, ← List.map_map (g := u.flux)]
  generalize (synchFrequencies k b n m).map _ = E
  generalize (synchFrequencies k b n m).map _ = S
  have e4 : nuToEps (u.consts k) (u.frequency nu) (blobIn u b).z (blobIn u b).delta_D = nuToEps k nu b.z b.delta_D :=
    eps hk _ _ _
  rw [e4]
  have e5 : ∀ S E : List ℝ, List.zipWith (fun n eps => n * sigma (u.consts k) (eps * nuToEps k nu b.z b.delta_D / 2))
        (List.zipWith (fun sed eps => (3 * (blobIn u b).d_L ^ 2 * sed) / ((u.consts k).c * (blobIn u b).R_b ^ 2
          * (blobIn u b).delta_D ^ 4 * eps ^ 2 * (u.consts k).m_e * (u.consts k).c ^ 2) * (3 / 4)) (S.map u.flux) E) E
      = (List.zipWith (fun n eps => n * sigma k (eps * nuToEps k nu b.z b.delta_D / 2))
        (List.zipWith (fun sed eps => (3 * b.d_L ^ 2 * sed) / (k.c * b.R_b ^ 2
          * b.delta_D ^ 4 * eps ^ 2 * k.m_e * k.c ^ 2) * (3 / 4)) S E) E).map (1 / u.l ^ 2 * ·) := by
    intro S
    induction S with
    | nil => simp
    | cons s S ih =>
      intro E
      cases E with
      | nil => simp
      | cons x E =>
        simp only [List.map_cons, List.zipWith_cons_cons, ih]
        congr 1
        rw [sigma']
        generalize sigma k _ = σ
        simp only [blobIn, Units.consts, Units.length, Units.flux]
        rcases eq_or_ne (b.delta_D ^ 4 * x ^ 2) 0 with h | h
        · have a1 : ∀ a : ℝ, a * b.delta_D ^ 4 * x ^ 2 = 0 := fun a => by rw [mul_assoc, h, mul_zero]
          simp only [a1]
          simp
        · have h1 : b.delta_D ≠ 0 := fun h0 => h (by rw [h0]; ring)
          have h2 : x ≠ 0 := fun h0 => h (by rw [h0]; ring)
          field_simp
  rw [e5, C33_trapz_scale]
  generalize trapz _ _ = J
  simp only [blobIn, Units.length]
  field_simp

/-! ### absorption -/

noncomputable def tauTarget (u : Units) : Absorption.Target → Absorption.Target
  | .blob b => .blob (blobIn u b)
  | .ps t => .ps { t with L_0 := u.luminosity t.L_0 }
  | .disk t => .disk (diskIn u t)
  | .blr t => .blr { t with L_disk := u.luminosity t.L_disk, R_line := u.length t.R_line }
  | .dt t => .dt (dtIn u t)
  | .other => .other

noncomputable def absIn (u : Units) (a : Abs) : Abs := { a with target := tauTarget u a.target, r := a.r.map u.length }

/-- conditions under which an opacity does not depend on the units -/
def TauOK (u : Units) (a : Abs) : Prop :=
  match a.target with
  | .blob b => 0 < b.B ∧ 0 < b.R_b ∧ 0 < b.d_L ∧ 0 < b.n_e.gmin ∧ 0 < b.n_e.gmax
  | .disk t => u.m ^ 2 * u.l ^ 4 = u.t ^ 3 ∧ 0 < t.M_BH ∧ 0 < t.eta
  | .blr t =>
    (∀ x ∈ (logspace 0 5 a.l_size).map (· * a.r.getD 0),
        closeTo (u.length x) (u.length t.R_line) ↔ closeTo x t.R_line) ∧
      ∀ x ∈ (logspace (-5) 5 (2 * a.l_size)).map (· * a.r.getD 0),
        closeTo (u.length (xCross (a.r.getD 0) x a.mu_s)) (u.length t.R_line)
          ↔ closeTo (xCross (a.r.getD 0) x a.mu_s) t.R_line
  | _ => True

theorem dtEps (hk : k.Pos) (t : DT) : (dtIn u t).epsilon_dt (u.consts k) = t.epsilon_dt k := by
  have := u.l_pos; have := u.m_pos; have := u.t_pos; have := u.θ_pos; have := hk.c; have := hk.m_e
  simp only [DT.epsilon_dt, dtIn, Consts.mec2, Units.consts]
  field_simp

/-- C103: the opacity of an `Absorption` object is a number -/
theorem C103_tau (hk : k.Pos) {a : Abs} (ha : TauOK u a) (nu : ℝ) :
    Absorption.tau (u.consts k) (absIn u a) (u.frequency nu) = Absorption.tau k a nu := by
  obtain ⟨target, r, z, mu_s, mu, phi, l_size⟩ := a
  have hr : (r.map u.length).getD 0 = u.length (r.getD 0) := by
    cases r
    · simp [Units.length]
    · rfl
  cases target with
  | other => rfl
  | blob b =>
    obtain ⟨h1, h2, h3, h4, h5⟩ := ha
    simp only [Absorption.tau, absIn, tauTarget]
    rw [C103_tau_synch hk h1 h2 h3 h4 h5 (by norm_num)]
  | ps t =>
    simp only [Absorption.tau, absIn, tauTarget, hr, C103_tau_ps hk, C103_tau_ps_mu_s hk]
  | disk t =>
    obtain ⟨h1, h2, h3⟩ := ha
    simp only [Absorption.tau, absIn, tauTarget, hr, diskIn, C103_tau_disk hk h1 h2 h3]
  | blr t =>
    simp only [Absorption.tau, absIn, tauTarget, hr]
    rw [C103_tau_blr hk _ _ _ _ _ _ _ _ _ _ _ ha.1, C103_tau_blr_mu_s hk _ _ _ _ _ _ _ _ _ _ _ ha.2]
  | dt t =>
    have h := dtEps (u := u) hk t
    simp only [Absorption.tau, absIn, tauTarget, hr, h]
    simp only [dtIn, C103_tau_dt hk, C103_tau_dt_mu_s hk]

/-! ### external Compton -/

noncomputable def ecTarget (u : Units) : Compton.Target → Compton.Target
  | .cmb t => .cmb { t with u_0 := u.energyDensity t.u_0 }
  | .ps t => .ps { t with L_0 := u.luminosity t.L_0 }
  | .disk t => .disk (diskIn u t)
  | .blr t => .blr { t with L_disk := u.luminosity t.L_disk, R_line := u.length t.R_line }
  | .dt t => .dt (dtIn u t)
  | .other => .other

noncomputable def ecIn (u : Units) (a : Compton.EC) : Compton.EC :=
  { a with blob := blobIn u a.blob, target := ecTarget u a.target, r := u.length a.r }

def ECOK (u : Units) (a : Compton.EC) : Prop :=
  0 < a.blob.d_L ∧ match a.target with
    | .ps _ => 0 < a.r
    | .disk t => u.m ^ 2 * u.l ^ 4 = u.t ^ 3 ∧ 0 < a.r ∧ 0 < t.eta
    | .blr _ => a.integrator = trapz
    | .dt t => 0 < t.R_dt
    | _ => True

/-- C103: the SED of an `ExternalCompton` object is a flux -/
theorem C103_ec (hk : k.Pos) {a : Compton.EC} (ha : ECOK u a) (nu : ℝ) :
    (ecIn u a).sedFlux (u.consts k) (u.frequency nu) = (a.sedFlux k nu).map u.flux := by
  obtain ⟨b, target, r, mu, mu_size, phi, I⟩ := a
  obtain ⟨hd, ha⟩ := ha
  have hm : (blobIn u b).mu_s = b.mu_s := rfl
  have hg : (blobIn u b).gamma_e_external_frame = b.gamma_e_external_frame := rfl
  cases target with
  | other => rfl
  | cmb t =>
    simp only [Compton.EC.sedFlux, ecIn, ecTarget, hm, hg, Option.map_some]
    exact congrArg some (C103_iso hk hd _ _ _ _ _ _ _ _ _ _ _)
  | ps t =>
    simp only [Compton.EC.sedFlux, ecIn, ecTarget, hm, hg, Option.map_some]
    exact congrArg some (C103_ps hk hd ha _ _ _ _ _ _ _ _ _)
  | disk t =>
    obtain ⟨h1, h2, h3⟩ := ha
    simp only [Compton.EC.sedFlux, ecIn, ecTarget, hm, hg, Option.map_some]
    exact congrArg some (C103_disk hk h1 hd h2 h3 _ _ _ _ _ _ _ _ _ _ _ _ _)
  | blr t =>
    obtain rfl : I = trapz := ha
    simp only [Compton.EC.sedFlux, ecIn, ecTarget, hm, hg, Option.map_some]
    exact congrArg some (C103_blr hk hd _ _ _ _ _ _ _ _ _ _ _ _ _ _)
  | dt t =>
    have h := dtEps (u := u) hk t
    simp only [Compton.EC.sedFlux, ecIn, ecTarget, hm, hg, h, Option.map_some]
    exact congrArg some (C103_dt hk hd ha _ _ _ _ _ _ _ _ _ _ _)

/-- the code holds the Eddington luminosity as a number of erg/s: the energies of the photons of a disk do depend on the
unit of luminosity -/
theorem C103_eddington (hk : k.Pos) {L M eta R : ℝ} (hL : 0 < L) (hM : 0 < M) (he : 0 < eta) (hR : 0 < R) :
    SSDisk.epsilon (u.consts k) (u.luminosity L) (u.mass M) eta R = SSDisk.epsilon k L M eta R
      ↔ u.m ^ 2 * u.l ^ 4 = u.t ^ 3 := by
  refine ⟨fun h => ?_, fun h => diskEps hk h L M eta R⟩
  have := u.l_pos; have := u.m_pos; have := u.t_pos; have hs := hk.M_sun
  have hc : 0 < u.m ^ 2 * u.l ^ 4 / u.t ^ 3 := by positivity
  have h8 : 0 < SSDisk.M_8 k M := by unfold SSDisk.M_8; positivity
  simp only [SSDisk.epsilon, SSDisk.l_Edd, SSDisk.L_Edd, m8 hk] at h
  rw [Units.luminosity, mul_div_assoc, mul_div_assoc, rpow_scale hc] at h
  have hx : 0 < (L / (126 / 100 * 10 ^ 46 * SSDisk.M_8 k M) / (SSDisk.M_8 k M * eta)) ^ (1 / 4 : ℝ) := by positivity
  have hy : 0 < R ^ (-3 / 4 : ℝ) := by positivity
  generalize (L / (126 / 100 * 10 ^ 46 * SSDisk.M_8 k M) / (SSDisk.M_8 k M * eta)) ^ (1 / 4 : ℝ) = x at h hx
  generalize R ^ (-3 / 4 : ℝ) = y at h hy
  have h1 : (u.m ^ 2 * u.l ^ 4 / u.t ^ 3) ^ (1 / 4 : ℝ) = 1 := by
    have h2 : 27 / 10 * (1 / 10 ^ 4) * x * y * ((u.m ^ 2 * u.l ^ 4 / u.t ^ 3) ^ (1 / 4 : ℝ) - 1) = 0 := by
      linear_combination h
    have h3 : 27 / 10 * (1 / 10 ^ 4) * x * y ≠ 0 := by positivity
    have := (mul_eq_zero.1 h2).resolve_left h3
    linarith
  have h4 : u.m ^ 2 * u.l ^ 4 / u.t ^ 3 = 1 := by
    have : ((u.m ^ 2 * u.l ^ 4 / u.t ^ 3) ^ (1 / 4 : ℝ)) ^ (4 : ℝ) = 1 ^ (4 : ℝ) := by rw [h1]
    rw [← Real.rpow_mul hc.le] at this
    norm_num at this
    exact this
  rwa [div_eq_one_iff_eq (by positivity)] at h4

/-! ### SI units -/

/-- from CGS to SI -/
noncomputable def si : Units where
  l := 1 / 10
  m := √(1 / 1000)
  t := 1
  θ := 1
  l_pos := by norm_num
  m_pos := by positivity
  t_pos := one_pos
  θ_pos := one_pos

/-- a field of 1 G has an energy density of 1/(80π) J/m³; 1 erg/s is 1e-7 W -/
example : si.length 100 = 1 ∧ si.luminosity 1 = 1 / 10 ^ 7 ∧ si.energyDensity (1 / (8 * Real.pi)) = 1 / (80 * Real.pi) := by
  have h : √(1 / 1000 : ℝ) ^ 2 = 1 / 1000 := Real.sq_sqrt (by norm_num)
  simp only [si, Units.length, Units.luminosity, Units.energyDensity, h]
  refine ⟨by norm_num, by norm_num, ?_⟩
  field_simp
  norm_num

/-- units that keep the unit of luminosity: the conditions for the disk can be met with other units of length, mass and
time -/
example : ∃ u : Units, u.l ≠ 1 ∧ u.m ≠ 1 ∧ u.t ≠ 1 ∧ u.m ^ 2 * u.l ^ 4 = u.t ^ 3 :=
  ⟨⟨2, 2, 4, 1, by norm_num, by norm_num, by norm_num, by norm_num⟩, by norm_num, by norm_num, by norm_num, by norm_num⟩

/-- a torus around a region meets the conditions of the opacity and of the external Compton SED in every system of units -/
example (u : Units) (b : Blob) (hb : 0 < b.d_L) (phi mu : List ℝ) :
    TauOK u ⟨.dt ⟨1, 1 / 10, 1000, 5⟩, some 3, 1, 1, mu, phi, 50⟩ ∧ ECOK u ⟨b, .dt ⟨1, 1 / 10, 1000, 5⟩, 3, mu, 100, phi, trapz⟩ :=
  ⟨trivial, hb, by norm_num⟩

/-- far outside the shell no node of the path is moved, in CGS as in SI units -/
example (phi mu : List ℝ) : TauOK si ⟨.blr ⟨1, 1 / 10, 1, 1⟩, some 10, 1, 1, mu, phi, 50⟩ := by
  have hl : si.l ^ 2 = 1 / 100 := by norm_num [si]
  have key : ∀ x : ℝ, 10 ≤ x → (closeTo (si.length x) (si.length 1) ↔ closeTo x 1) := by
    intro x hx
    unfold closeTo minRelDistance Units.length
    rw [hl]
    have h1 : |1 / 100 * x - 1 / 100 * 1| = (x - 1) / 100 := by rw [abs_of_nonneg (by linarith)]; ring
    have h2 : |x - 1| = x - 1 := abs_of_nonneg (by linarith)
    rw [h1, h2, abs_of_pos (by norm_num), abs_of_pos (by norm_num)]
    constructor <;> intro h <;> exfalso <;> norm_num at h
    · linarith
    · linarith
  refine ⟨fun x hx => key x ?_, fun x hx => key _ ?_⟩
  · obtain ⟨y, hy, rfl⟩ := List.mem_map.1 hx
    obtain ⟨e, he, rfl⟩ := List.mem_map.1 hy
    obtain ⟨i, _, rfl⟩ := List.mem_map.1 he
    have h1 : (1 : ℝ) ≤ 10 ^ (0 + (i : ℝ) * ((5 - 0) / (((50 : ℕ) : ℝ) - 1))) :=
      Real.one_le_rpow (by norm_num) (by norm_num)
    simp only [Option.getD_some]
    linarith
  · obtain ⟨y, hy, rfl⟩ := List.mem_map.1 hx
    have h1 := logspace_pos y hy
    simp only [Option.getD_some, xCross]
    rw [show (10 : ℝ) ^ 2 + (y * 10) ^ 2 + 2 * (y * 10) * 10 * 1 = (10 + y * 10) ^ 2 by ring, Real.sqrt_sq (by positivity)]
    linarith

end Verif.UnitSystem
