import Verif.Lemmas.Paths
import Verif.Props.Absorption

/-
C43 (opacities are non-negative), C44 (guard of the shell), C66 (pair-production threshold),
C67 (linearity in the luminosity).
-/

namespace Verif.Absorption

open MathUtils Spectra Geometry Region Targets

/-- the square of the energy of each photon in the centre of momentum frame, in units of m_e c² : the collision is above
the pair-production threshold when it exceeds 1 -/
noncomputable def collision (e1 e0 c : ℝ) : ℝ := e1 * e0 * (1 - c) / 2

/-- hypotheses common to all targets -/
structure Setup (k : Consts) (a : Abs) (nu : ℝ) : Prop where
  consts : k.Pos
  nu : 0 < nu
  z : 0 ≤ a.z
  mu_s : a.mu_s ∈ Set.Icc (-1) 1
  mu : a.mu.IsChain (· < ·)
  mu_range : ∀ m ∈ a.mu, m ∈ Set.Icc (-1) 1
  mu_size : 2 ≤ a.mu.length
  phi : a.phi.IsChain (· < ·)
  phi_size : 2 ≤ a.phi.length
  l_size : 2 ≤ a.l_size
  l_size_le : a.l_size ≤ 50000

theorem linspace_length (a b : ℝ) (n : ℕ) : (linspace a b n).length = n := by simp [linspace]

theorem linspace_strict {a b : ℝ} (h : a < b) {n : ℕ} (hn : 2 ≤ n) : (linspace a b n).IsChain (· < ·) :=
  List.isChain_iff_pairwise.2 (linspace_pairwise h n hn)

/-- a newly built object meets the hypotheses on the grids -/
theorem setup_new {k : Consts} (hk : k.Pos) {t : Target} {r : Option ℝ} {z mu_s nu : ℝ} (hz : 0 ≤ z) (hn : 0 < nu)
    (hm : mu_s ∈ Set.Icc (-1) 1) {a : Abs} (h : new t r z mu_s = some a) : Setup k a nu := by
  have h2 : a = { target := t, r := r, z := z, mu_s := mu_s, mu := linspace (-1) 1 100
                  phi := linspace 0 (2 * Real.pi) 50, l_size := 50 } := by
    cases r <;> cases t <;> simp_all [new]
  subst h2
  exact
    { consts := hk, nu := hn, z := hz, mu_s := hm
      mu := linspace_strict (by norm_num) (by norm_num)
      mu_range := fun m hm => linspace_mem (by norm_num) (by norm_num) hm
      mu_size := by rw [linspace_length]; norm_num
      phi := linspace_strict (by positivity) (by norm_num)
      phi_size := by rw [linspace_length]; norm_num
      l_size := by norm_num
      l_size_le := by norm_num }

variable {k : Consts} {a : Abs} {nu : ℝ}

theorem Setup.eps (h : Setup k a nu) : 0 < nuToEps k nu a.z 1 := Synchrotron.nuToEps_pos h.consts h.nu h.z one_pos

/-- the integrand of the monochromatic targets, for a collision at distance `x` from the emitter with cosine `c` -/
noncomputable def term (k : Consts) (e1 e0 x c : ℝ) : ℝ := (1 - c) / x ^ 2 * sigma k (e1 * e0 * (1 - c) / 2)

theorem term_nonneg (hk : k.Pos) {e1 e0 x c : ℝ} (hc : c ≤ 1) : 0 ≤ term k e1 e0 x c := by
  have := sigma_nonneg hk (e1 * e0 * (1 - c) / 2)
  have : 0 ≤ 1 - c := by linarith
  unfold term
  positivity

theorem term_zero_iff (hk : k.Pos) {x c e1 e0 : ℝ} (hx : 0 < x) :
    term k e1 e0 x c = 0 ↔ collision e1 e0 c ≤ 1 := by
  have hx2 : x ^ 2 ≠ 0 := by positivity
  unfold collision term
  rw [mul_eq_zero, C41_zero_iff hk, div_eq_zero_iff]
  constructor
  · rintro ((h | h) | h)
    · rw [h]; norm_num
    · exact absurd h hx2
    · exact h
  · exact Or.inr

/-- a value that is non-negative, and zero exactly under a condition -/
def ZeroIff (x : ℝ) (P : Prop) : Prop := 0 ≤ x ∧ (x = 0 ↔ P)

theorem ZeroIff.mul {p x : ℝ} {P : Prop} (hp : 0 < p) (h : ZeroIff x P) : ZeroIff (p * x) P :=
  ⟨mul_nonneg hp.le h.1, by rw [mul_eq_zero, or_iff_right hp.ne', h.2]⟩

theorem ZeroIff.over {grid : List ℝ} {f : ℝ → ℝ} {P : ℝ → Prop} (hc : grid.IsChain (· < ·)) (hl : 2 ≤ grid.length)
    (h : ∀ x ∈ grid, ZeroIff (f x) (P x)) : ZeroIff (Verif.over trapz grid f) (∀ x ∈ grid, P x) := by
  refine ⟨over_trapz_nonneg (hc.imp fun _ _ h => h.le) fun x hx => (h x hx).1, ?_⟩
  rw [over_trapz_eq_zero_iff hc hl fun x hx => (h x hx).1]
  exact forall₂_congr fun x hx => (h x hx).2

theorem ZeroIff.term (hk : k.Pos) {x c e1 e0 : ℝ} (hx : 0 < x) (hc : c ≤ 1) :
    ZeroIff (term k e1 e0 x c) (collision e1 e0 c ≤ 1) := ⟨term_nonneg hk hc, term_zero_iff hk hx⟩

/-! ### point source behind the blob -/

theorem aligned_strict {n : ℕ} (hn : 2 ≤ n) {a b r : ℝ} (hab : a < b) (hr : 0 < r) :
    ((logspace a b n).map (· * r)).IsChain (· < ·) := by
  rw [List.isChain_iff_pairwise, List.pairwise_map]
  exact (logspace_pairwise hab n hn).imp fun hxy => mul_lt_mul_of_pos_right hxy hr

theorem aligned_length {n : ℕ} (a b r : ℝ) : ((logspace a b n).map (· * r)).length = n := by
  rw [List.length_map, logspace, List.length_map, linspace_length]

/-- hypotheses on a point source -/
structure PSOK (t : PS) (r : ℝ) : Prop where
  L_0 : 0 < t.L_0
  epsilon_0 : 0 < t.epsilon_0
  r : 0 < r

/-- C43: photons moving straight away from the point source are not absorbed -/
theorem C43_ps_aligned (k : Consts) (nu z e0 L r : ℝ) : tauPS k nu z 1 e0 L r = 0 := by
  unfold tauPS
  simp

/-- distance of the photon from the source on an oblique path: the divisor does not vanish -/
theorem ps_distance_pos {r u m : ℝ} (hr : 0 < r) (hu : 0 < u) (hm : -1 < m) :
    0 < √(r * r + u * u + 2 * u * r * m) := by
  apply Real.sqrt_pos.2
  have : 0 < u * r := mul_pos hu hr
  nlinarith [sq_nonneg (r - u)]

theorem ps_prefactor_pos (hk : k.Pos) {t : PS} {r : ℝ} (ht : PSOK t r) :
    0 < t.L_0 / (4 * Real.pi * t.epsilon_0 * k.m_e * k.c ^ 3) := by
  have := hk.m_e; have := hk.c; have := ht.L_0; have := ht.epsilon_0
  positivity

/-- C66 for a point source: the opacity on an oblique path vanishes exactly when no point of the path is above the
pair-production threshold -/
theorem C66_ps (h : Setup k a nu) {t : PS} {r : ℝ} (ht : PSOK t r) (hm : -1 < a.mu_s) {n : ℕ} (hn : 2 ≤ n) :
    ZeroIff (tauPSMuS k nu a.z a.mu_s t.epsilon_0 t.L_0 r n)
      (∀ u ∈ (logspace (-5) 5 n).map (· * r), collision (nuToEps k nu a.z 1) t.epsilon_0
        (cosPsi a.mu_s ((r + u * a.mu_s) / √(r * r + u * u + 2 * u * r * a.mu_s)) 0) ≤ 1) :=
  ((ZeroIff.over (aligned_strict hn (by norm_num) ht.r) (by rw [aligned_length]; exact hn) fun u hu =>
    ZeroIff.term h.consts (ps_distance_pos ht.r (path_pos ht.r u hu) hm)
      (C38_range h.mu_s (ps_angle h.mu_s) 0).2).mul (ps_prefactor_pos h.consts ht))

/-! ### dust torus -/

/-- hypotheses on a torus -/
structure DTOK (t : DT) (r : ℝ) : Prop where
  L_disk : 0 < t.L_disk
  xi_dt : 0 < t.xi_dt
  T_dt : 0 < t.T_dt
  R_dt : 0 < t.R_dt
  r : 0 < r

theorem dt_eps_pos (hk : k.Pos) {t : DT} {r : ℝ} (ht : DTOK t r) : 0 < t.epsilon_dt k := by
  unfold DT.epsilon_dt Consts.mec2
  have := hk.m_e; have := hk.c; have := hk.k_B; have := ht.T_dt
  positivity

theorem dt_prefactor_pos (hk : k.Pos) {t : DT} {r : ℝ} (ht : DTOK t r) :
    0 < (t.L_disk * t.xi_dt) / (8 * Real.pi ^ 2 * t.epsilon_dt k * k.m_e * k.c ^ 3) := by
  have := hk.m_e; have := hk.c; have := ht.L_disk; have := ht.xi_dt; have := dt_eps_pos hk ht
  positivity

theorem ring_pos {R l : ℝ} (hR : 0 < R) : 0 < xReRing R l := by
  unfold xReRing
  apply Real.sqrt_pos.2
  positivity

/-- C66 for a torus, along the jet -/
theorem C66_dt (h : Setup k a nu) {t : DT} {r : ℝ} (ht : DTOK t r) :
    ZeroIff (tauDT k nu a.z a.mu_s t.L_disk t.xi_dt (t.epsilon_dt k) t.R_dt r a.l_size a.phi)
      (∀ l ∈ (logspace 0 5 a.l_size).map (· * r), ∀ phi ∈ a.phi,
        collision (nuToEps k nu a.z 1) (t.epsilon_dt k) (cosPsi a.mu_s (l / xReRing t.R_dt l) phi) ≤ 1) :=
  (ZeroIff.over (aligned_strict h.l_size (by norm_num) ht.r) (by rw [aligned_length]; exact h.l_size) fun _ _ =>
    ZeroIff.over h.phi h.phi_size fun phi _ =>
      ZeroIff.term h.consts (ring_pos ht.R_dt) (C38_range h.mu_s ring_angle phi).2).mul (dt_prefactor_pos h.consts ht)

/-- C66 for a torus on an oblique path that does not meet the ring -/
theorem C66_dt_mu_s (h : Setup k a nu) {t : DT} {r : ℝ} (ht : DTOK t r) {n : ℕ} (hn : 2 ≤ n)
    (hx : ∀ u ∈ (logspace (-5) 5 n).map (· * r), ∀ phi ∈ a.phi, 0 < xReRingMuS t.R_dt r phi u a.mu_s) :
    ZeroIff (tauDTMuS k nu a.z a.mu_s t.L_disk t.xi_dt (t.epsilon_dt k) t.R_dt r n a.phi)
      (∀ u ∈ (logspace (-5) 5 n).map (· * r), ∀ phi ∈ a.phi,
        collision (nuToEps k nu a.z 1) (t.epsilon_dt k)
          (cosPsi a.mu_s (phiMuReRing t.R_dt r phi u a.mu_s).2 (phiMuReRing t.R_dt r phi u a.mu_s).1) ≤ 1) :=
  (ZeroIff.over (aligned_strict hn (by norm_num) ht.r) (by rw [aligned_length]; exact hn) fun u hu =>
    ZeroIff.over h.phi h.phi_size fun phi hphi =>
      ZeroIff.term h.consts (hx u hu phi hphi) (C38_range h.mu_s (ring_angle_mu_s h.mu_s) _).2).mul
    (dt_prefactor_pos h.consts ht)

/-- a path towards the half space of the observer does not meet the ring -/
theorem ring_path_pos {R r phi u m : ℝ} (hr : 0 < r) (hu : 0 < u) (h0 : 0 ≤ m) (h1 : m ≤ 1) :
    0 < xReRingMuS R r phi u m := by
  unfold xReRingMuS
  apply Real.sqrt_pos.2
  have hs := Real.sq_sqrt (sq_le_one_of_mem (m := m) ⟨by linarith, h1⟩)
  generalize √(1 - m * m) = s at hs ⊢
  have hc := Real.sin_sq_add_cos_sq phi
  have e : u * u + R * R + r * r - 2 * u * R * s * Real.cos phi + 2 * r * u * m
      = (u * s - R * Real.cos phi) ^ 2 + (R * Real.sin phi) ^ 2 + (r + u * m) ^ 2 := by
    have e1 : R * R = R * R * (Real.sin phi ^ 2 + Real.cos phi ^ 2) := by rw [hc, mul_one]
    have e2 : u * u * (1 - m * m) = u * u * s ^ 2 := by rw [hs]
    have e3 : u * u = u * u * (1 - m * m) + u * u * (m * m) := by ring
    rw [e1, e3, e2]; ring
  rw [e]
  have : 0 < (r + u * m) ^ 2 := by have := mul_nonneg hu.le h0; positivity
  positivity

/-! ### broad line region -/

/-- hypotheses on a broad line region -/
structure BLROK (t : BLR) (r : ℝ) : Prop where
  L_disk : 0 < t.L_disk
  xi_line : 0 < t.xi_line
  epsilon_line : 0 < t.epsilon_line
  R_line : 1 ≤ t.R_line
  r : 0 < r

theorem blr_prefactor_pos (hk : k.Pos) {t : BLR} {r : ℝ} (ht : BLROK t r) :
    0 < (t.L_disk * t.xi_line) / ((4 * Real.pi) ^ 2 * t.epsilon_line * k.m_e * k.c ^ 3) := by
  have := hk.m_e; have := hk.c; have := ht.L_disk; have := ht.xi_line; have := ht.epsilon_line
  positivity

/-- away from the shell the distance to its elements does not vanish -/
theorem shell_pos {R l mu : ℝ} (hR : 0 < R) (hl : 0 < l) (hne : l ≠ R) (hm : mu ≤ 1) : 0 < xReShell mu R l := by
  unfold xReShell
  apply Real.sqrt_pos.2
  have h1 : 0 < (l - R) ^ 2 := by
    have : l - R ≠ 0 := sub_ne_zero.2 hne
    positivity
  have h2 : 0 ≤ 2 * l * R * (1 - mu) := by
    have : 0 ≤ 1 - mu := by linarith
    positivity
  nlinarith

/-- C66 for a broad line region, along the jet, when no point of the guarded path is on the shell (see `C44_iff`) -/
theorem C66_blr (h : Setup k a nu) {t : BLR} {r : ℝ} (ht : BLROK t r)
    (hoff : ∀ l ∈ guardPath ((logspace 0 5 a.l_size).map (· * r)) t.R_line, l ≠ t.R_line) :
    ZeroIff (tauBLR k nu a.z a.mu_s t.L_disk t.xi_line t.epsilon_line t.R_line r a.l_size a.mu a.phi)
      (∀ l ∈ guardPath ((logspace 0 5 a.l_size).map (· * r)) t.R_line, ∀ phi ∈ a.phi, ∀ mu ∈ a.mu,
        collision (nuToEps k nu a.z 1) t.epsilon_line (cosPsi a.mu_s (muStarShell mu t.R_line l) phi) ≤ 1) := by
  have hR : 0 < t.R_line := by linarith [ht.R_line]
  have hl : 2 ≤ (guardPath ((logspace 0 5 a.l_size).map (· * r)) t.R_line).length := by
    unfold guardPath
    rw [List.length_map, aligned_length]; exact h.l_size
  have hp := guardPath_pos (path_pos (a := 0) (b := 5) (n := a.l_size) ht.r) hR.le
  have hx := fun l hl mu (hmu : mu ∈ a.mu) => shell_pos hR (hp l hl) (hoff l hl) (h.mu_range mu hmu).2
  exact (ZeroIff.over (guardPath_chain h.l_size h.l_size_le ht.r ht.R_line) hl fun l hl =>
    ZeroIff.over h.phi h.phi_size fun phi _ => ZeroIff.over h.mu h.mu_size fun mu hmu =>
      ZeroIff.term h.consts (hx l hl mu hmu)
        (C38_range h.mu_s (C35_range (h.mu_range mu hmu) (hx l hl mu hmu).ne') phi).2).mul
    (blr_prefactor_pos h.consts ht)

/-- away from the shell the distance to its elements does not vanish, on oblique paths -/
theorem shell_mu_s_pos {R r phi mu u m : ℝ} (hm : m ∈ Set.Icc (-1 : ℝ) 1) (hmu : mu ∈ Set.Icc (-1 : ℝ) 1) (hR : 0 ≤ R)
    (hne : xCross r u m ≠ R) : 0 < xReShellMuS R r phi mu u m := by
  have hX : xCross r u m ^ 2 = r ^ 2 + u ^ 2 + 2 * u * r * m := by
    unfold xCross
    rw [Real.sq_sqrt]
    have := mul_nonneg (mul_self_nonneg u) (sq_le_one_of_mem hm)
    nlinarith [sq_nonneg (r + u * m)]
  have hX0 : 0 ≤ xCross r u m := Real.sqrt_nonneg _
  generalize xCross r u m = X at hX hX0 hne
  unfold xReShellMuS
  apply Real.sqrt_pos.2
  have hs := Real.sq_sqrt (sq_le_one_of_mem hm)
  have ht := Real.sq_sqrt (sq_le_one_of_mem hmu)
  generalize √(1 - m * m) = s at hs ⊢
  generalize √(1 - mu * mu) = t at ht ⊢
  have hc : Real.cos phi ^ 2 ≤ 1 := by nlinarith [Real.sin_sq_add_cos_sq phi, sq_nonneg (Real.sin phi)]
  generalize Real.cos phi = c at hc ⊢
  have h1 : (t * c * (u * s) + mu * (r + u * m)) ^ 2 ≤ X ^ 2 := by
    have e1 : X ^ 2 = (u * s) ^ 2 + (r + u * m) ^ 2 := by rw [hX, mul_pow, hs]; ring
    have e2 : (t * c * (u * s) + mu * (r + u * m)) ^ 2
        ≤ (t ^ 2 * c ^ 2 + mu ^ 2) * ((u * s) ^ 2 + (r + u * m) ^ 2) := by
      nlinarith [sq_nonneg (t * c * (r + u * m) - mu * (u * s))]
    have e3 : t ^ 2 * c ^ 2 + mu ^ 2 ≤ 1 := by
      have : t ^ 2 * c ^ 2 ≤ t ^ 2 := mul_le_of_le_one_right (sq_nonneg t) hc
      nlinarith
    rw [e1]
    refine e2.trans (mul_le_of_le_one_left (by positivity) e3)
  have h2 : t * c * (u * s) + mu * (r + u * m) ≤ X := (abs_le_of_sq_le_sq' h1 hX0).2
  have h3 : 0 < (X - R) ^ 2 := by
    have : X - R ≠ 0 := sub_ne_zero.2 hne
    positivity
  nlinarith [mul_le_mul_of_nonneg_left h2 hR]

/-- hypothesis on an oblique path: no point of it is on the shell -/
def OffShell (a : Abs) (t : BLR) (r : ℝ) (n : ℕ) : Prop :=
  ∀ u ∈ guardPathMuS ((logspace (-5) 5 n).map (· * r)) t.R_line r a.mu_s, xCross r u a.mu_s ≠ t.R_line

/-- C43 and one half of C66 for a broad line region on an oblique path off the shell.  (The other half is not proved:
the shift of the guard could in principle make two points of the path coincide.) -/
theorem C66_blr_mu_s (h : Setup k a nu) {t : BLR} {r : ℝ} (ht : BLROK t r) {n : ℕ} (hn : 2 ≤ n)
    (hoff : OffShell a t r n) :
    0 ≤ tauBLRMuS k nu a.z a.mu_s t.L_disk t.xi_line t.epsilon_line t.R_line r n a.mu a.phi ∧
    ((∀ u ∈ guardPathMuS ((logspace (-5) 5 n).map (· * r)) t.R_line r a.mu_s, ∀ phi ∈ a.phi, ∀ mu ∈ a.mu,
        collision (nuToEps k nu a.z 1) t.epsilon_line
          (cosPsi a.mu_s (phiMuReShell t.R_line r phi mu u a.mu_s).2
            (phiMuReShell t.R_line r phi mu u a.mu_s).1) ≤ 1) →
      tauBLRMuS k nu a.z a.mu_s t.L_disk t.xi_line t.epsilon_line t.R_line r n a.mu a.phi = 0) := by
  have hR : 0 ≤ t.R_line := by linarith [ht.R_line]
  have hc := guardPathMuS_chain (path_chain (a := -5) (b := 5) (by norm_num) hn ht.r.le) t.R_line r a.mu_s
  have hz := fun u (hu : u ∈ guardPathMuS ((logspace (-5) 5 n).map (· * r)) t.R_line r a.mu_s) =>
    ZeroIff.over h.phi h.phi_size fun phi _ => ZeroIff.over h.mu h.mu_size fun mu hmu =>
      ZeroIff.term h.consts (e1 := nuToEps k nu a.z 1) (e0 := t.epsilon_line)
        (shell_mu_s_pos (phi := phi) h.mu_s (h.mu_range mu hmu) hR (hoff u hu))
        (C38_range h.mu_s (shell_angle_mu_s (phi := phi) (R := t.R_line) (r := r) (u := u) h.mu_s
          (h.mu_range mu hmu)) (phiMuReShell t.R_line r phi mu u a.mu_s).1).2
  refine ⟨mul_nonneg (blr_prefactor_pos h.consts ht).le (over_trapz_nonneg hc fun u hu => (hz u hu).1), fun hall => ?_⟩
  unfold tauBLRMuS
  dsimp only
  apply mul_eq_zero_of_right
  exact over_zero fun u hu => (hz u hu).2.2 (hall u hu)

/-! ### disk -/

/-- hypotheses on a disk -/
structure DiskOK (t : SSDisk) (r : ℝ) : Prop where
  M_BH : 0 < t.M_BH
  L_disk : 0 < t.L_disk
  eta : 0 < t.eta
  R_in : 0 < t.R_in
  R_out : t.R_in < t.R_out
  r : 0 < r

theorem disk_eps_pos (hk : k.Pos) {L M e R : ℝ} (hL : 0 < L) (hM : 0 < M) (he : 0 < e) (hR : 0 < R) :
    0 < SSDisk.epsilon k L M e R := by
  unfold SSDisk.epsilon SSDisk.l_Edd SSDisk.L_Edd SSDisk.M_8
  have := hk.M_sun
  positivity

theorem toRg_pos (hk : k.Pos) {x M : ℝ} (hx : 0 < x) (hM : 0 < M) : 0 < toRg k x M := by
  unfold toRg
  have := hk.G; have := hk.c
  positivity

/-- C66 for a disk, along the jet: the opacity vanishes exactly when every collision with a photon of the disk outside
its inner edge (where nothing is emitted) is below the threshold -/
theorem C66_disk (h : Setup k a nu) {t : SSDisk} {r : ℝ} (ht : DiskOK t r) {n : ℕ} (hn : 2 ≤ n) :
    ZeroIff (tauDisk k nu a.z a.mu_s t.M_BH t.L_disk t.eta t.R_in t.R_out r n a.l_size a.phi)
      (∀ l ∈ (logspace 0 5 a.l_size).map (· * toRg k r t.M_BH), ∀ phi ∈ a.phi,
        ∀ R ∈ linspace (toRg k t.R_in t.M_BH) (toRg k t.R_out t.M_BH) n,
        R = toRg k t.R_in t.M_BH ∨
        collision (SSDisk.epsilon k t.L_disk t.M_BH t.eta R) (nuToEps k nu a.z 1)
          (cosPsi a.mu_s ((1 + R ^ 2 / l ^ 2) ^ (-1 / 2 : ℝ)) phi) ≤ 1) := by
  have hr := toRg_pos h.consts ht.r ht.M_BH
  have hin := toRg_pos h.consts ht.R_in ht.M_BH
  have hlt : toRg k t.R_in t.M_BH < toRg k t.R_out t.M_BH := by
    unfold toRg
    have := h.consts.G; have := h.consts.c; have := ht.M_BH
    exact div_lt_div_of_pos_right ht.R_out (by positivity)
  have hpre : 0 < 3 * t.L_disk
      / ((4 * Real.pi) ^ 2 * t.eta * k.m_e * k.c ^ 3 * (k.G * t.M_BH / k.c ^ 2)) := by
    have := h.consts.m_e; have := h.consts.c; have := h.consts.G
    have := ht.L_disk; have := ht.eta; have := ht.M_BH
    positivity
  refine ZeroIff.mul hpre (ZeroIff.over (aligned_strict h.l_size (by norm_num) hr)
    (by rw [aligned_length]; exact h.l_size) fun l hl => ZeroIff.over h.phi h.phi_size fun phi _ =>
    ZeroIff.over (linspace_strict hlt hn) (by rw [linspace_length]; exact hn) fun R hR => ?_)
  dsimp only
  have hl0 := path_pos hr l hl
  have hR1 := (linspace_mem hlt.le hn hR).1
  generalize toRg k t.R_in t.M_BH = Rin at hin hR1 ⊢
  have hR0 : 0 < R := lt_of_lt_of_le hin hR1
  have he := disk_eps_pos h.consts ht.L_disk ht.M_BH ht.eta hR0
  generalize SSDisk.epsilon k t.L_disk t.M_BH t.eta R = ε at he ⊢
  have hcos := (C38_range h.mu_s (disk_angle (R ^ 2 / l ^ 2) (by positivity)) phi).2
  generalize cosPsi a.mu_s ((1 + R ^ 2 / l ^ 2) ^ (-1 / 2 : ℝ)) phi = c at hcos ⊢
  have hphi : 0 ≤ 1 - (Rin / R) ^ (1 / 2 : ℝ) := by
    have : (Rin / R) ^ (1 / 2 : ℝ) ≤ 1 :=
      Real.rpow_le_one (by positivity) ((div_le_one hR0).2 hR1) (by norm_num)
    linarith
  have hphi0 : 1 - (Rin / R) ^ (1 / 2 : ℝ) = 0 ↔ R = Rin := by
    rw [← Real.sqrt_eq_rpow, sub_eq_zero, eq_comm, Real.sqrt_eq_one, div_eq_one_iff_eq hR0.ne', eq_comm]
  have hw : 0 < 1 / l ^ 2 / R ^ 2 / (1 + R ^ 2 / l ^ 2) ^ (3 / 2 : ℝ) := by positivity
  have hsg := sigma_nonneg h.consts (ε * nuToEps k nu a.z 1 * (1 - c) / 2)
  have hc0 : 0 ≤ 1 - c := by linarith
  constructor
  · generalize 1 / l ^ 2 / R ^ 2 / (1 + R ^ 2 / l ^ 2) ^ (3 / 2 : ℝ) = w at hw ⊢
    generalize 1 - (Rin / R) ^ (1 / 2 : ℝ) = p at hphi ⊢
    positivity
  · rw [mul_eq_zero, mul_eq_zero, div_eq_zero_iff, mul_eq_zero, or_iff_right hw.ne', or_iff_left he.ne', hphi0,
      C41_zero_iff h.consts]
    unfold collision
    constructor
    · rintro ((h | h) | h)
      · exact Or.inl h
      · exact Or.inr h
      · rw [h]; right; norm_num
    · rintro (h | h)
      · exact Or.inl (Or.inl h)
      · exact Or.inl (Or.inr h)

/-! ### blob -/

/-- hypotheses on a blob whose synchrotron photons are the target -/
structure BlobOK (k : Consts) (b : Blob) : Prop where
  consts : k.Pos
  grid : b.GoodGrid
  z : 0 ≤ b.z
  d_L : 0 < b.d_L
  delta : 0 < b.delta_D
  B : 0 < b.B
  R_b : 0 < b.R_b
  dist : b.n_e.Positive
  nonempty : b.n_e.NonEmpty

theorem BlobOK.physical {b : Blob} (h : BlobOK k b) (hn : 0 < nu) :
    Synchrotron.Physical k nu b.z b.d_L b.delta_D b.B b.R_b b.n_e :=
  ⟨h.consts, hn, h.z, h.d_L, h.delta, h.B, h.R_b, h.dist⟩

theorem synchFrequencies_pairwise {b : Blob} (h : BlobOK k b) {n : ℕ} (hn : 2 ≤ n) :
    (synchFrequencies k b n (1 / 100)).Pairwise (· < ·) := by
  have h1 : 0 < b.n_e.gmin := h.grid.pos
  have h2 := h.grid.lt
  have := h.consts.e; have := h.consts.m_e; have := h.consts.c; have := h.B
  unfold synchFrequencies
  apply logspace_pairwise _ n hn
  have hq : 0 < k.e * b.B / (2 * Real.pi * k.m_e * k.c) := by positivity
  apply log10_lt
  · unfold Synchrotron.nuSynchPeak
    positivity
  · unfold Synchrotron.nuSynchPeak
    have h3 : b.n_e.gmin ^ 2 < b.n_e.gmax ^ 2 := by nlinarith
    have h4 := mul_lt_mul_of_pos_left h3 hq
    have h5 : 0 < k.e * b.B / (2 * Real.pi * k.m_e * k.c) * b.n_e.gmin ^ 2 := by positivity
    linarith

/-- C66 for the synchrotron photons of the blob itself: isotropic in the blob, mean collision angle 90 degrees -/
theorem C66_blob {b : Blob} (h : BlobOK k b) (nu : ℝ) {n : ℕ} (hn : 2 ≤ n) :
    ZeroIff (tauSynch k b nu n (1 / 100))
      (∀ nu_s ∈ synchFrequencies k b n (1 / 100),
        collision (nuToEps k (nu_s * b.delta_D / (1 + b.z)) b.z b.delta_D) (nuToEps k nu b.z b.delta_D) 0 ≤ 1) := by
  have hz : 0 < 1 + b.z := by linarith [h.z]
  have hd := h.delta
  have hR := h.R_b
  have hL := h.d_L
  have hkc := h.consts.c; have hkm := h.consts.m_e; have hkh := h.consts.h
  have hpos : ∀ x ∈ synchFrequencies k b n (1 / 100), 0 < x := logspace_pos
  have hpw := synchFrequencies_pairwise h hn
  have hlen : (synchFrequencies k b n (1 / 100)).length = n := by
    unfold synchFrequencies logspace
    rw [List.length_map, linspace_length]
  unfold tauSynch
  simp only [List.map_map, List.zipWith_map, List.zipWith_self, Function.comp_def]
  generalize synchFrequencies k b n (1 / 100) = grid at hpos hpw hlen ⊢
  apply ZeroIff.mul (by positivity)
  have hE : ∀ x ∈ grid, 0 < nuToEps k (x * b.delta_D / (1 + b.z)) b.z b.delta_D := by
    intro x hx
    have := hpos x hx
    exact Synchrotron.nuToEps_pos h.consts (by positivity) h.z hd
  have hsed : ∀ x ∈ grid, 0 < 3 * b.d_L ^ 2
      * Synchrotron.sedFlux k trapz true (x * b.delta_D / (1 + b.z)) b.z b.d_L b.delta_D b.B b.R_b b.n_e b.gamma_e
      / (k.c * b.R_b ^ 2 * b.delta_D ^ 4 * nuToEps k (x * b.delta_D / (1 + b.z)) b.z b.delta_D ^ 2 * k.m_e * k.c ^ 2)
      * (3 / 4) := by
    intro x hx
    have h0 := hpos x hx
    have h1 := Synchrotron.C51_blob_pos h.grid h.nonempty
      (h.physical (nu := x * b.delta_D / (1 + b.z)) (by positivity)) true
    have h2 := hE x hx
    positivity
  have hch : (grid.map fun x => nuToEps k (x * b.delta_D / (1 + b.z)) b.z b.delta_D).IsChain (· < ·) := by
    rw [List.isChain_iff_pairwise, List.pairwise_map]
    refine hpw.imp fun {x y} hxy => ?_
    unfold nuToEps Consts.mec2
    apply div_lt_div_of_pos_right _ hd
    apply mul_lt_mul_of_pos_left _ hz
    apply div_lt_div_of_pos_right _ (by positivity)
    apply mul_lt_mul_of_pos_left _ hkh
    apply div_lt_div_of_pos_right _ hz
    exact mul_lt_mul_of_pos_right hxy hd
  have hnn : ∀ y ∈ grid.map fun x => 3 * b.d_L ^ 2
      * Synchrotron.sedFlux k trapz true (x * b.delta_D / (1 + b.z)) b.z b.d_L b.delta_D b.B b.R_b b.n_e b.gamma_e
      / (k.c * b.R_b ^ 2 * b.delta_D ^ 4 * nuToEps k (x * b.delta_D / (1 + b.z)) b.z b.delta_D ^ 2 * k.m_e * k.c ^ 2)
      * (3 / 4)
      * sigma k (nuToEps k (x * b.delta_D / (1 + b.z)) b.z b.delta_D * nuToEps k nu b.z b.delta_D / 2), 0 ≤ y := by
    intro y hy
    obtain ⟨x, hx, rfl⟩ := List.mem_map.1 hy
    exact mul_nonneg (hsed x hx).le (sigma_nonneg h.consts _)
  refine ⟨C33_trapz_nonneg _ _ (hch.imp fun _ _ h => h.le) hnn, fun h0 x hx => ?_, fun hall => ?_⟩
  · have := trapz_eq_zero hch (by rw [List.length_map, hlen]; exact hn) (by simp) hnn h0 _ (List.mem_map_of_mem hx)
    rcases mul_eq_zero.1 this with h1 | h1
    · exact absurd h1 (hsed x hx).ne'
    · unfold collision
      rw [sub_zero, mul_one]
      exact (C41_zero_iff h.consts _).1 h1
  · have e : (grid.map fun x => 3 * b.d_L ^ 2
      * Synchrotron.sedFlux k trapz true (x * b.delta_D / (1 + b.z)) b.z b.d_L b.delta_D b.B b.R_b b.n_e b.gamma_e
      / (k.c * b.R_b ^ 2 * b.delta_D ^ 4 * nuToEps k (x * b.delta_D / (1 + b.z)) b.z b.delta_D ^ 2 * k.m_e * k.c ^ 2)
      * (3 / 4)
      * sigma k (nuToEps k (x * b.delta_D / (1 + b.z)) b.z b.delta_D * nuToEps k nu b.z b.delta_D / 2))
      = (grid.map fun _ => (1 : ℝ)).map ((0 : ℝ) * ·) := by
      rw [List.map_map]
      refine List.map_congr_left fun x hx => ?_
      have := hall x hx
      unfold collision at this
      rw [sub_zero, mul_one] at this
      rw [C41_below k this]
      simp
    rw [e, C33_trapz_scale, zero_mul]

/-! ### C43: the object -/

/-- hypotheses on the target of an `Absorption` object; for a shell or a ring the photon path has no point on it -/
def TargetOK (k : Consts) (a : Abs) : Prop :=
  match a.target, a.r with
  | .blob b, _ => BlobOK k b
  | .ps t, some r => PSOK t r ∧ -1 < a.mu_s
  | .disk t, some r => DiskOK t r
  | .blr t, some r => BLROK t r ∧
      (∀ l ∈ guardPath ((logspace 0 5 a.l_size).map (· * r)) t.R_line, l ≠ t.R_line) ∧ OffShell a t r (2 * a.l_size)
  | .dt t, some r => DTOK t r ∧
      ∀ u ∈ (logspace (-5) 5 (2 * a.l_size)).map (· * r), ∀ phi ∈ a.phi, 0 < xReRingMuS t.R_dt r phi u a.mu_s
  | .other, _ => True
  | _, none => False

/-- C43: whatever the target, when there is an opacity it is not negative -/
theorem C43_nonneg (h : Setup k a nu) (ht : TargetOK k a) {t : ℝ} (e : tau k a nu = some t) : 0 ≤ t := by
  have hl : 2 ≤ 2 * a.l_size := by have := h.l_size; omega
  obtain ⟨target, r, z, mu_s, mu, phi, l_size⟩ := a
  unfold TargetOK at ht
  unfold tau at e
  by_cases hm : mu_s = 1 <;> rcases target with b | t | t | t | t | _ <;> rcases r with _ | r <;>
    simp only [hm, if_true, if_false, Option.some.injEq, Option.getD_some, reduceCtorEq] at e ht <;>
    first
    | contradiction
    | (subst e)
  · exact (C66_blob ht nu (by norm_num)).1
  · exact (C66_blob ht nu (by norm_num)).1
  · rw [C43_ps_aligned]
  · subst hm; exact (C66_disk h ht (by norm_num)).1
  · subst hm; exact (C66_blr h ht.1 ht.2.1).1
  · subst hm; exact (C66_dt h ht.1).1
  · exact (C66_blob ht nu (by norm_num)).1
  · exact (C66_blob ht nu (by norm_num)).1
  · exact (C66_ps h ht.1 ht.2 (by norm_num)).1
  · exact (C66_blr_mu_s h ht.1 hl ht.2.2).1
  · exact (C66_dt_mu_s h ht.1 hl ht.2).1

/-- C43: the fraction of transmitted photons is in (0, 1] -/
theorem C43_absorption (h : Setup k a nu) (ht : TargetOK k a) {x : ℝ} (e : absorption k a nu = some x) :
    x ∈ Set.Ioc 0 1 := by
  unfold absorption at e
  obtain ⟨t, h1, rfl⟩ := Option.map_eq_some_iff.1 e
  exact C42_exp.1 t (C43_nonneg h ht h1)

/-- C43: there is no result (`None`) exactly for a disk seen off the jet axis and for objects that are not supported -/
theorem C43_none (k : Consts) (a : Abs) (nu : ℝ) :
    tau k a nu = none ↔ a.target = .other ∨ (∃ t, a.target = .disk t) ∧ a.mu_s ≠ 1 := by
  obtain ⟨target, r, z, mu_s, mu, phi, l_size⟩ := a
  unfold tau
  by_cases hm : mu_s = 1 <;> cases target <;> simp [hm]

/-- C43: a missing distance is an error except for a blob -/
theorem C43_distance (t : Target) (r : Option ℝ) (z mu_s : ℝ) :
    new t r z mu_s = none ↔ r = none ∧ ∀ b, t ≠ .blob b := by
  cases r <;> cases t <;> simp [new]

end Verif.Absorption
