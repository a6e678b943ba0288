import Verif.Props.Compton

/- C68: limiting geometries of the targets of external Compton agree. -/

namespace Verif.Compton

open MathUtils Spectra Geometry Kernels Region Targets Absorption

variable {k : Consts} {I : List ℝ → List ℝ → ℝ}

/-- the rule of trapezes on a constant -/
theorem over_const (c x : ℝ) (xs : List ℝ) :
    over trapz (x :: xs) (fun _ => c) = ((x :: xs).getLast (by simp) - x) * c := by
  have := C33_trapz_affine c 0 x xs
  simp only [zero_mul, add_zero, intervalIntegral.integral_const, smul_eq_mul] at this
  exact this

theorem over_const_span {grid : List ℝ} {a b c : ℝ} (h0 : grid.head? = some a) (h1 : grid.getLast? = some b) :
    over trapz grid (fun _ => c) = (b - a) * c := by
  cases grid with
  | nil => simp at h0
  | cons x xs =>
    simp only [List.head?_cons, Option.some.injEq] at h0
    rw [List.getLast?_eq_some_getLast (by simp), Option.some.injEq] at h1
    rw [over_const, h1, h0]

/-- photons coming from right behind: the azimuth plays no role -/
theorem kernel_behind (g εs ε mu_s φ : ℝ) : comptonKernel g εs ε mu_s 1 φ = comptonKernel g εs ε mu_s 1 0 := by
  have : cosPsi mu_s 1 φ = cosPsi mu_s 1 0 := by unfold cosPsi; simp
  unfold comptonKernel getGammaMin
  rw [this]

/-- the azimuths go once around -/
def FullCircle (phi : List ℝ) : Prop := phi.head? = some 0 ∧ phi.getLast? = some (2 * Real.pi)

/-- the zenith angles cover the sphere -/
def FullSphere (mu : List ℝ) : Prop := mu.head? = some (-1) ∧ mu.getLast? = some 1

/-- C68: a torus of radius zero is a point source of the reprocessed luminosity -/
theorem C68_torus (nu z d_L δ mu_s R_b L xi e : ℝ) {r : ℝ} (hr : 0 < r) (n_e : Dist) (gamma : List ℝ) {phi : List ℝ}
    (hphi : FullCircle phi) :
    dt k I nu z d_L δ mu_s R_b L xi e 0 r n_e gamma phi
      = psBehindJet k I nu z d_L δ mu_s R_b e (xi * L) r n_e gamma := by
  have hx : xReRing 0 r = r := by
    unfold xReRing
    rw [zero_pow (by norm_num), zero_add, Real.sqrt_sq hr.le]
  have hp := Real.pi_ne_zero
  unfold dt psBehindJet
  simp only [hx, div_self hr.ne']
  rw [over_congr (g := fun _ => fold I (boostedN n_e R_b δ gamma) gamma fun N g =>
    N / g ^ 2 * comptonKernel g (nuToEps k nu z 1) e mu_s 1 0) (by intro p _; simp only [kernel_behind _ _ _ _ p]),
    over_const_span hphi.1 hphi.2]
  generalize fold I _ _ _ = J
  rw [sub_zero, ← mul_assoc]
  congr 1
  rw [div_mul_eq_mul_div, show (2 : ℝ) ^ 8 * Real.pi ^ 3 * d_L ^ 2 * r ^ 2 * e ^ 2
      = 2 * Real.pi * (2 ^ 7 * Real.pi ^ 2 * d_L ^ 2 * r ^ 2 * e ^ 2) by ring, mul_comm _ (2 * Real.pi),
    mul_div_mul_left _ _ (by positivity)]
  ring

/-- C68: a shell of radius zero is a point source of the reprocessed luminosity -/
theorem C68_shell (hI : HomogeneousIntegrator I) (nu z d_L δ mu_s R_b L xi e : ℝ) {r : ℝ} (hr : 0 < r) (n_e : Dist)
    (gamma : List ℝ) {mu phi : List ℝ} (hmu : FullSphere mu) (hphi : FullCircle phi) :
    blr k I nu z d_L δ mu_s R_b L xi e 0 r n_e gamma mu phi
      = psBehindJet k I nu z d_L δ mu_s R_b e (xi * L) r n_e gamma := by
  have hx : ∀ m, xReShell m 0 r = r := by
    intro m
    unfold xReShell
    rw [show (0 : ℝ) ^ 2 + r ^ 2 - 2 * r * 0 * m = r ^ 2 by ring, Real.sqrt_sq hr.le]
  have hm : ∀ m, muStarShell m 0 r = 1 := by
    intro m
    unfold muStarShell
    simp only [zero_div, mul_zero, gt_iff_lt, hr, if_true]
    norm_num
  have hp := Real.pi_ne_zero
  have hf : (fold I (boostedN n_e R_b δ gamma) gamma fun N g =>
        1 / r ^ 2 * N / g ^ 2 * comptonKernel g (nuToEps k nu z 1) e mu_s 1 0)
      = 1 / r ^ 2 * fold I (boostedN n_e R_b δ gamma) gamma fun N g =>
        N / g ^ 2 * comptonKernel g (nuToEps k nu z 1) e mu_s 1 0 := by
    unfold fold
    rw [← hI, List.map_zipWith]
    congr 2
    funext N g
    ring
  unfold blr psBehindJet
  simp only [hx, hm]
  rw [over_congr (g := fun _ => 2 * (1 / r ^ 2 * fold I (boostedN n_e R_b δ gamma) gamma fun N g =>
    N / g ^ 2 * comptonKernel g (nuToEps k nu z 1) e mu_s 1 0)) ?_, over_const_span hphi.1 hphi.2]
  · generalize fold I _ _ _ = J
    rw [sub_zero, ← mul_assoc, ← mul_assoc, ← mul_assoc]
    congr 1
    rw [div_mul_eq_mul_div, div_mul_eq_mul_div, div_mul_eq_mul_div, mul_one_div, div_div,
      show (2 : ℝ) ^ 9 * Real.pi ^ 3 * d_L ^ 2 * e ^ 2 = (2 * Real.pi * 2) * (2 ^ 7 * Real.pi ^ 2 * d_L ^ 2 * e ^ 2) by ring,
      mul_assoc _ (2 * Real.pi) 2, mul_comm _ (2 * Real.pi * 2), mul_left_comm (r ^ 2),
      mul_div_mul_left _ _ (by positivity)]
    congr 1 <;> ring
  · intro p _
    simp only [kernel_behind _ _ _ _ p]
    rw [over_const_span hmu.1 hmu.2, hf]
    ring

/-! ### the centre of a shell -/

theorem trapz_reverse (f : ℝ → ℝ) (l : List ℝ) :
    over trapz (l.map (- ·)).reverse f = over trapz l fun x => f (-x) := by
  induction l with
  | nil => rfl
  | cons x l ih =>
    cases l with
    | nil => simp [over, trapz]
    | cons y l =>
      have h : ∀ (xs : List ℝ) (a b : ℝ), over trapz (xs ++ [a, b]) f
          = over trapz (xs ++ [a]) f + (b - a) * (f a + f b) / 2 := by
        intro xs a b
        induction xs with
        | nil => simp [over, trapz]
        | cons p xs ihx =>
          cases xs with
          | nil =>
            simp [over, trapz]
          | cons q xs =>
            simp only [over, List.cons_append, List.map_cons, trapz] at ihx ⊢
            rw [ihx]
            ring
      rw [List.map_cons, List.map_cons, List.reverse_cons, List.reverse_cons, List.append_assoc]
      change over trapz (_ ++ [-y, -x]) f = _
      rw [h]
      rw [List.map_cons, List.reverse_cons] at ih
      rw [ih]
      simp only [over, List.map_cons, trapz]
      ring

/-- C68: a blob in the centre of a shell sees an isotropic radiation field, of the energy density the shell has there -/
theorem C68_centre (hk : k.Pos) (hI : HomogeneousIntegrator I) (nu z d_L δ mu_s R_b L xi e : ℝ) {R : ℝ} (hR : 0 < R)
    (n_e : Dist) (gamma : List ℝ) {mu phi : List ℝ} (hmu : ∀ m ∈ mu, m ∈ Set.Icc (-1) 1) :
    blr k I nu z d_L δ mu_s R_b L xi e R 0 n_e gamma mu phi
      = isoMono k I nu z d_L δ mu_s R_b e (xi * L / (4 * Real.pi * R ^ 2 * k.c)) n_e gamma (mu.map (- ·)).reverse phi := by
  have hx : ∀ m, xReShell m R 0 = R := by
    intro m
    unfold xReShell
    rw [show R ^ 2 + (0 : ℝ) ^ 2 - 2 * 0 * R * m = R ^ 2 by ring, Real.sqrt_sq hR.le]
  have hm : ∀ m ∈ mu, muStarShell m R 0 = -m := by
    intro m hm
    rw [muStarShell_eq (hmu m hm) (by ring_nf; positivity), hx]
    field_simp
    ring
  have hp := Real.pi_ne_zero
  have hc := hk.c.ne'
  have hf : ∀ m p, (fold I (boostedN n_e R_b δ gamma) gamma fun N g =>
        1 / R ^ 2 * N / g ^ 2 * comptonKernel g (nuToEps k nu z 1) e mu_s m p)
      = 1 / R ^ 2 * fold I (boostedN n_e R_b δ gamma) gamma fun N g =>
        N / g ^ 2 * comptonKernel g (nuToEps k nu z 1) e mu_s m p := by
    intro m p
    unfold fold
    rw [← hI, List.map_zipWith]
    congr 2
    funext N g
    ring
  unfold blr isoMono
  simp only [trapz_reverse]
  rw [over_congr (g := fun p => 1 / R ^ 2 * over trapz mu fun m => fold I (boostedN n_e R_b δ gamma) gamma fun N g =>
    N / g ^ 2 * comptonKernel g (nuToEps k nu z 1) e mu_s (-m) p) ?_]
  · rw [over_scale homogeneous_trapz]
    generalize over trapz phi _ = J
    rw [← mul_assoc]
    congr 1
    by_cases hd : d_L = 0
    · simp [hd]
    by_cases he : e = 0
    · simp [he]
    field_simp
    ring
  · intro p _
    rw [← over_scale homogeneous_trapz]
    apply over_congr
    intro m hmm
    simp only [hx, hm m hmm]
    exact hf (-m) p

/-- C68: in the centre, with the angles symmetric as those of `ExternalCompton`, the formula of the shell is that of
the cosmic microwave background -/
theorem C68_centre_symmetric (hk : k.Pos) (hI : HomogeneousIntegrator I) (nu z d_L δ mu_s R_b L xi e : ℝ) {R : ℝ}
    (hR : 0 < R) (n_e : Dist) (gamma phi : List ℝ) {n : ℕ} (hn : 2 ≤ n) :
    blr k I nu z d_L δ mu_s R_b L xi e R 0 n_e gamma (linspace (-1) 1 n) phi
      = isoMono k I nu z d_L δ mu_s R_b e (xi * L / (4 * Real.pi * R ^ 2 * k.c)) n_e gamma (linspace (-1) 1 n) phi := by
  rw [C68_centre hk hI _ _ _ _ _ _ _ _ _ hR _ _ fun m hm => linspace_mem (by norm_num) hn hm]
  congr 1
  have h1 : (n : ℝ) - 1 ≠ 0 := by
    have : (2 : ℝ) ≤ n := by exact_mod_cast hn
    linarith
  apply List.ext_getElem
  · simp [linspace]
  · intro i h1' h2'
    have hi : i < n := by simpa [linspace] using h2'
    simp [linspace, List.getElem_reverse]
    rw [Nat.cast_sub (by omega), Nat.cast_sub (by omega)]
    field_simp
    push_cast
    ring

theorem linspace_ends {a b : ℝ} {n : ℕ} (hn : 2 ≤ n) :
    (linspace a b n).head? = some a ∧ (linspace a b n).getLast? = some b := by
  have h1 : (n : ℝ) - 1 ≠ 0 := by
    have : (2 : ℝ) ≤ n := by exact_mod_cast hn
    linarith
  unfold linspace
  rw [List.head?_eq_getElem?, List.getLast?_eq_getElem?, List.length_map, List.length_range]
  constructor
  · simp [show 0 < n by omega]
  · simp [show n - 1 < n by omega]
    rw [Nat.cast_sub (by omega)]
    field_simp
    push_cast
    ring

/-- the angles of an `ExternalCompton` object meet the hypotheses -/
example : FullCircle (linspace 0 (2 * Real.pi) 50) ∧ FullSphere (linspace (-1) 1 100) :=
  ⟨linspace_ends (by norm_num), linspace_ends (by norm_num)⟩

end Verif.Compton
