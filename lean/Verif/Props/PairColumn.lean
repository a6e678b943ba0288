import Verif.Props.TargetField
import Verif.Props.SynchShape
import Verif.Props.FarField
import Verif.Props.ShellGuard

/-
C108: the opacity is at most the column of photons on the path times the largest cross-section, and it vanishes at the
highest energies.
-/

namespace Verif.Absorption

open MathUtils Geometry Region Targets Spectra TargetField

variable {k : Consts}

/-! ### the cross-section -/

theorem log_three : 10985 / 10000 ≤ Real.log 3 ∧ Real.log 3 ≤ 10989 / 10000 := by
  have h1 := Real.log_two_gt_d9
  have h2 := Real.log_two_lt_d9
  constructor
  · have h : (84 : ℝ) * Real.log 2 ≤ 53 * Real.log 3 := by
      have := Real.log_le_log (by norm_num) (show (2 : ℝ) ^ 84 ≤ 3 ^ 53 by norm_num)
      rw [Real.log_pow, Real.log_pow] at this
      exact_mod_cast this
    linarith
  · have h : (41 : ℝ) * Real.log 3 ≤ 65 * Real.log 2 := by
      have := Real.log_le_log (by norm_num) (show (3 : ℝ) ^ 41 ≤ 2 ^ 65 by norm_num)
      rw [Real.log_pow, Real.log_pow] at this
      exact_mod_cast this
    linarith

/-- the logarithm below its tangent at `w` -/
theorem log_tangent {x w l : ℝ} (h0 : 0 ≤ x) (h1 : x < 1) (hw : 0 < w) (hl : Real.log w ≤ l) :
    Real.log ((1 + x) / (1 - x)) * (1 - x ^ 2) ≤ (l - 1) * (1 - x ^ 2) + (1 + x) ^ 2 / w := by
  have hx : 0 < 1 - x := by linarith
  have hy : 0 < (1 + x) / (1 - x) := by positivity
  have h := Real.log_le_sub_one_of_pos (div_pos hy hw)
  rw [Real.log_div hy.ne' hw.ne'] at h
  have h2 : 0 ≤ 1 - x ^ 2 := by nlinarith
  have e : (1 + x) ^ 2 / w = (1 + x) / (1 - x) / w * (1 - x ^ 2) := by field_simp; ring
  rw [e, ← add_mul]
  exact mul_le_mul_of_nonneg_right (by linarith) h2

/-- the cross-section without its factor -/
noncomputable def shape (L x : ℝ) : ℝ := (3 - x ^ 4) * (L * (1 - x ^ 2)) - 2 * x * (2 - x ^ 2) * (1 - x ^ 2)

theorem shape_le {x w l : ℝ} (h0 : 0 ≤ x) (h1 : x < 1) (hw : 0 < w) (hl : Real.log w ≤ l) :
    shape (Real.log ((1 + x) / (1 - x))) x
      ≤ (3 - x ^ 4) * ((l - 1) * (1 - x ^ 2) + (1 + x) ^ 2 / w) - 2 * x * (2 - x ^ 2) * (1 - x ^ 2) := by
  have h4 : 0 ≤ 3 - x ^ 4 := by have := pow_le_one₀ (n := 4) h0 h1.le; linarith
  have := mul_le_mul_of_nonneg_left (log_tangent h0 h1 hw hl) h4
  unfold shape
  linarith

theorem poly_low {x : ℝ} (h0 : 0 ≤ x) (h1 : x ≤ 3 / 5) :
    (3 - x ^ 4) * ((10989 / 10000 - 1) * (1 - x ^ 2) + (1 + x) ^ 2 / (3)) - 2 * x * (2 - x ^ 2) * (1 - x ^ 2)
      ≤ 104 / 75 := by
  have a0 : 0 ≤ x - 0 := by linarith
  have a1 : 0 ≤ 3 / 5 - x := by linarith
  have e : 104 / 75
      - ((3 - x ^ 4) * ((10989 / 10000 - 1) * (1 - x ^ 2) + (1 + x) ^ 2 / (3)) - 2 * x * (2 - x ^ 2) * (1 - x ^ 2))
      = 67475 / 34992 * ((x - 0) ^ 0 * (3 / 5 - x) ^ 6) + 217475 / 5832 * ((x - 0) ^ 1 * (3 / 5 - x) ^ 5) + 887039 / 5832 * ((x - 0) ^ 2 * (3 / 5 - x) ^ 4) + 538621 / 2187 * ((x - 0) ^ 3 * (3 / 5 - x) ^ 3) + 24994967 / 145800 * ((x - 0) ^ 4 * (3 / 5 - x) ^ 2) + 3060067 / 72900 * ((x - 0) ^ 5 * (3 / 5 - x) ^ 1) + 442202 / 1366875 * ((x - 0) ^ 6 * (3 / 5 - x) ^ 0) := by ring
  have : 0 ≤ 104 / 75
      - ((3 - x ^ 4) * ((10989 / 10000 - 1) * (1 - x ^ 2) + (1 + x) ^ 2 / (3)) - 2 * x * (2 - x ^ 2) * (1 - x ^ 2)) := by
    rw [e]; positivity
  linarith

theorem poly_mid {x : ℝ} (h0 : 3 / 5 ≤ x) (h1 : x ≤ 37 / 50) :
    (3 - x ^ 4) * ((2092611 / 1250000 - 1) * (1 - x ^ 2) + (1 + x) ^ 2 / (16 / 3)) - 2 * x * (2 - x ^ 2) * (1 - x ^ 2)
      ≤ 104 / 75 := by
  have a0 : 0 ≤ x - 3 / 5 := by linarith
  have a1 : 0 ≤ 37 / 50 - x := by linarith
  have e : 104 / 75
      - ((3 - x ^ 4) * ((2092611 / 1250000 - 1) * (1 - x ^ 2) + (1 + x) ^ 2 / (16 / 3)) - 2 * x * (2 - x ^ 2) * (1 - x ^ 2))
      = 7044326272 / 1764735 * ((x - 3 / 5) ^ 0 * (37 / 50 - x) ^ 6) + 81550815288 / 2941225 * ((x - 3 / 5) ^ 1 * (37 / 50 - x) ^ 5) + 206417577368 / 2941225 * ((x - 3 / 5) ^ 2 * (37 / 50 - x) ^ 4) + 3715044019874 / 44118375 * ((x - 3 / 5) ^ 3 * (37 / 50 - x) ^ 3) + 3617688054422 / 73530625 * ((x - 3 / 5) ^ 4 * (37 / 50 - x) ^ 2) + 86947076178457 / 7353062500 * ((x - 3 / 5) ^ 5 * (37 / 50 - x) ^ 1) + 21228235980491 / 55147968750 * ((x - 3 / 5) ^ 6 * (37 / 50 - x) ^ 0) := by ring
  have : 0 ≤ 104 / 75
      - ((3 - x ^ 4) * ((2092611 / 1250000 - 1) * (1 - x ^ 2) + (1 + x) ^ 2 / (16 / 3)) - 2 * x * (2 - x ^ 2) * (1 - x ^ 2)) := by
    rw [e]; positivity
  linarith

theorem poly_high {x : ℝ} (h0 : 37 / 50 ≤ x) (h1 : x ≤ 1) :
    (3 - x ^ 4) * ((9552029 / 5000000 - 1) * (1 - x ^ 2) + (1 + x) ^ 2 / (27 / 4)) - 2 * x * (2 - x ^ 2) * (1 - x ^ 2)
      ≤ 104 / 75 := by
  have a0 : 0 ≤ x - 37 / 50 := by linarith
  have a1 : 0 ≤ 1 - x := by linarith
  have e : 104 / 75
      - ((3 - x ^ 4) * ((9552029 / 5000000 - 1) * (1 - x ^ 2) + (1 + x) ^ 2 / (27 / 4)) - 2 * x * (2 - x ^ 2) * (1 - x ^ 2))
      = 2806719895588639 / 24134045000000 * ((x - 37 / 50) ^ 0 * (1 - x) ^ 6) + 2946266807919719 / 2172064050000 * ((x - 37 / 50) ^ 1 * (1 - x) ^ 5) + 608660648135359 / 130323843000 * ((x - 37 / 50) ^ 2 * (1 - x) ^ 4) + 4980918879952 / 651619215 * ((x - 37 / 50) ^ 3 * (1 - x) ^ 3) + 588901975865 / 86882562 * ((x - 37 / 50) ^ 4 * (1 - x) ^ 2) + 419309455250 / 130323843 * ((x - 37 / 50) ^ 5 * (1 - x) ^ 1) + 85000000000 / 130323843 * ((x - 37 / 50) ^ 6 * (1 - x) ^ 0) := by ring
  have : 0 ≤ 104 / 75
      - ((3 - x ^ 4) * ((9552029 / 5000000 - 1) * (1 - x ^ 2) + (1 + x) ^ 2 / (27 / 4)) - 2 * x * (2 - x ^ 2) * (1 - x ^ 2)) := by
    rw [e]; positivity
  linarith

theorem shape_bound {x : ℝ} (h0 : 0 ≤ x) (h1 : x < 1) : shape (Real.log ((1 + x) / (1 - x))) x ≤ 104 / 75 := by
  obtain ⟨t1, t2⟩ := log_three
  have l1 := Real.log_two_gt_d9
  have l2 := Real.log_two_lt_d9
  rcases le_or_gt x (3 / 5) with h | h
  · exact (shape_le h0 h1 (by norm_num) t2).trans (poly_low h0 h)
  · rcases le_or_gt x (37 / 50) with h' | h'
    · have e : Real.log (16 / 3) ≤ 2092611 / 1250000 := by
        rw [Real.log_div (by norm_num) (by norm_num), show (16 : ℝ) = 2 ^ 4 by norm_num, Real.log_pow]
        push_cast
        linarith
      exact (shape_le h0 h1 (by norm_num) e).trans (poly_mid h.le h')
    · have e : Real.log (27 / 4) ≤ 9552029 / 5000000 := by
        rw [Real.log_div (by norm_num) (by norm_num), show (27 : ℝ) = 3 ^ 3 by norm_num, show (4 : ℝ) = 2 ^ 2 by norm_num,
          Real.log_pow, Real.log_pow]
        push_cast
        linarith
      exact (shape_le h0 h1 (by norm_num) e).trans (poly_high h'.le h1.le)

theorem sigma_shape {s : ℝ} (h : 1 ≤ s) :
    sigma k s = 3 / 16 * k.sigma_T * shape (MathUtils.log ((1 + √(1 - 1 / s)) / (1 - √(1 - 1 / s)))) √(1 - 1 / s) := by
  unfold sigma
  dsimp only
  rw [if_neg (not_lt.2 h)]
  unfold shape
  ring

theorem clog_le {x : ℝ} (h0 : 0 ≤ x) (h1 : x < 1) :
    MathUtils.log ((1 + x) / (1 - x)) ≤ Real.log ((1 + x) / (1 - x)) := by
  have h : 1 ≤ (1 + x) / (1 - x) := by rw [le_div_iff₀ (by linarith)]; linarith
  rw [clog_eq h]
  have := fmax_ge
  exact Real.log_le_log (lt_min (by linarith) (by linarith)) (min_le_left _ _)

theorem shape_clog {x : ℝ} (h0 : 0 ≤ x) (h1 : x < 1) :
    shape (MathUtils.log ((1 + x) / (1 - x))) x ≤ shape (Real.log ((1 + x) / (1 - x))) x := by
  have h4 : 0 ≤ 3 - x ^ 4 := by have := pow_le_one₀ (n := 4) h0 h1.le; linarith
  have h2 : 0 ≤ 1 - x ^ 2 := by nlinarith
  have := mul_le_mul_of_nonneg_left (mul_le_mul_of_nonneg_right (clog_le h0 h1) h2) h4
  unfold shape
  linarith

/-- **C108** (largest cross-section).  It never exceeds 0.26 of Thomson's. -/
theorem C108_largest (hk : k.Pos) (s : ℝ) : sigma k s ≤ 26 / 100 * k.sigma_T := by
  have hs := hk.sigma_T
  rcases lt_or_ge s 1 with h | h
  · rw [C41_below k h.le]; positivity
  · obtain ⟨h0, h1⟩ := beta_range h
    rw [sigma_shape h]
    have := mul_le_mul_of_nonneg_left ((shape_clog h0 h1).trans (shape_bound h0 h1))
      (show 0 ≤ 3 / 16 * k.sigma_T by positivity)
    linarith

/-- **C108** (attained).  At twice the threshold it is a quarter of Thomson's. -/
theorem C108_peak (hk : k.Pos) : 25 / 100 * k.sigma_T ≤ sigma k 2 := by
  have hs := hk.sigma_T
  rw [sigma_shape (by norm_num)]
  have e : √(1 - 1 / (2 : ℝ)) = √2 / 2 := by
    rw [show (1 : ℝ) - 1 / 2 = 2 / 2 ^ 2 by norm_num, Real.sqrt_div (by norm_num), Real.sqrt_sq (by norm_num)]
  have q2 : √2 ^ 2 = (2 : ℝ) := Real.sq_sqrt (by norm_num)
  have q0 := Real.sqrt_nonneg 2
  have qlo : (14142 / 10000 : ℝ) ≤ √2 := Real.le_sqrt_of_sq_le (by norm_num)
  have qhi : √2 ≤ (14143 / 10000 : ℝ) := Real.sqrt_le_iff.2 ⟨by norm_num, by norm_num⟩
  have ew : (1 + √2 / 2) / (1 - √2 / 2) = 3 + 2 * √2 := by
    rw [div_eq_iff (by linarith)]
    nlinarith
  rw [e, ew]
  have hL : (175 / 100 : ℝ) ≤ MathUtils.log (3 + 2 * √2) := by
    have hf := fmax_ge
    rw [clog_eq (by linarith), min_eq_left (by linarith)]
    have h1 : Real.log 192 ≤ 3 * Real.log (3 + 2 * √2) := by
      have := Real.log_le_log (by norm_num) (show (192 : ℝ) ≤ (3 + 2 * √2) ^ 3 by nlinarith)
      rw [Real.log_pow] at this
      exact_mod_cast this
    have h2 : Real.log 192 = 6 * Real.log 2 + Real.log 3 := by
      rw [show (192 : ℝ) = 2 ^ 6 * 3 by norm_num, Real.log_mul (by norm_num) (by norm_num), Real.log_pow]
      norm_num
    have := log_three.1
    have := Real.log_two_gt_d9
    linarith
  generalize MathUtils.log (3 + 2 * √2) = L at hL ⊢
  have e4 : (√2 / 2) ^ 4 = (1 / 4 : ℝ) := by
    rw [div_pow, show √2 ^ 4 = (√2 ^ 2) ^ 2 by ring, q2]; norm_num
  have e2 : (√2 / 2) ^ 2 = (1 / 2 : ℝ) := by rw [div_pow, q2]; norm_num
  unfold shape
  rw [e4, e2]
  have : (4 / 3 : ℝ) ≤ (3 - 1 / 4) * (L * (1 - 1 / 2)) - 2 * (√2 / 2) * (2 - 1 / 2) * (1 - 1 / 2) := by linarith
  have := mul_le_mul_of_nonneg_left this (show 0 ≤ 3 / 16 * k.sigma_T by positivity)
  linarith

/-- **C108** (high energies).  Far above the threshold the cross-section falls. -/
theorem C108_fall (hk : k.Pos) {s : ℝ} (h : 1 ≤ s) : s * sigma k s ≤ 9 / 16 * k.sigma_T * Real.log (4 * s) := by
  have hs := hk.sigma_T
  obtain ⟨h0, h1⟩ := beta_range h
  rw [sigma_shape h]
  have hsq : √(1 - 1 / s) ^ 2 = 1 - 1 / s := Real.sq_sqrt (by
    rw [sub_nonneg, div_le_one (by linarith)]; exact h)
  set x := √(1 - 1 / s)
  have hL := clog_le h0 h1
  have e1 : s * (1 - x ^ 2) = 1 := by rw [hsq]; field_simp; ring
  have hx : 0 < 1 - x := by linarith
  have hL2 : Real.log ((1 + x) / (1 - x)) ≤ Real.log (4 * s) := by
    refine Real.log_le_log (by positivity) ?_
    rw [div_le_iff₀ hx]
    have : (1 + x) * (s * (1 - x ^ 2)) ≤ 4 * s * (1 - x) := by
      have : 4 * s * (1 - x) - (1 + x) * (s * (1 - x ^ 2)) = s * (1 - x) * (4 - (1 + x) ^ 2) := by ring
      have h3 : 0 ≤ s * (1 - x) * (4 - (1 + x) ^ 2) :=
        mul_nonneg (mul_nonneg (by linarith) hx.le) (by nlinarith)
      linarith
    rw [e1] at this
    linarith
  have hlog : 0 ≤ Real.log (4 * s) := Real.log_nonneg (by linarith)
  have hl0 : MathUtils.log ((1 + x) / (1 - x)) ≤ Real.log (4 * s) := hL.trans hL2
  generalize MathUtils.log ((1 + x) / (1 - x)) = L at hl0 ⊢
  have h4 : 0 ≤ 3 - x ^ 4 := by have := pow_le_one₀ (n := 4) h0 h1.le; linarith
  have e2 : s * (3 / 16 * k.sigma_T * shape L x)
      = 3 / 16 * k.sigma_T * ((3 - x ^ 4) * L - 2 * x * (2 - x ^ 2)) := by
    unfold shape
    linear_combination (3 / 16 * k.sigma_T * ((3 - x ^ 4) * L - 2 * x * (2 - x ^ 2))) * e1
  rw [e2]
  have h5 : (3 - x ^ 4) * L ≤ 3 * Real.log (4 * s) := by
    have a1 := mul_le_mul_of_nonneg_left hl0 h4
    have a2 : (3 - x ^ 4) * Real.log (4 * s) ≤ 3 * Real.log (4 * s) :=
      mul_le_mul_of_nonneg_right (by have : 0 ≤ x ^ 4 := by positivity
                                     linarith) hlog
    linarith
  have h6 : 0 ≤ 2 * x * (2 - x ^ 2) := by
    have : x ^ 2 ≤ 1 := by nlinarith
    have : 0 ≤ 2 - x ^ 2 := by linarith
    positivity
  have := mul_le_mul_of_nonneg_left (show (3 - x ^ 4) * L - 2 * x * (2 - x ^ 2) ≤ 3 * Real.log (4 * s) by linarith)
    (show 0 ≤ 3 / 16 * k.sigma_T by positivity)
  linarith

/-! ### fields -/

open Filter Topology

theorem over_le {grid : List ℝ} (hc : grid.IsChain (· ≤ ·)) {f g : ℝ → ℝ} (h : ∀ x ∈ grid, f x ≤ g x) :
    Verif.over trapz grid f ≤ Verif.over trapz grid g := by
  have := trapz_mono grid f g id (by rw [List.map_id]; exact hc) h
  rwa [List.map_id] at this

/-- a field of photons with energies in `E`: a sum with weights that are not negative -/
structure Sound (E : ℝ → Prop) (F : Field) : Prop where
  mono : ∀ f g : ℝ → ℝ → ℝ → ℝ, (∀ m p e, m ∈ Set.Icc (-1 : ℝ) 1 → E e → f m p e ≤ g m p e) → F f ≤ F g
  scale : ∀ (c : ℝ) (f : ℝ → ℝ → ℝ → ℝ), F (fun m p e => c * f m p e) = c * F f
  limit : ∀ f : ℝ → ℝ → ℝ → ℝ → ℝ,
    (∀ m p e, m ∈ Set.Icc (-1 : ℝ) 1 → E e → Tendsto (fun nu => f nu m p e) atTop (𝓝 0)) →
      Tendsto (fun nu => F (f nu)) atTop (𝓝 0)

theorem sound_one {w m p e : ℝ} {E : ℝ → Prop} (hw : 0 ≤ w) (hm : m ∈ Set.Icc (-1 : ℝ) 1) (he : E e) :
    Sound E fun f => w * f m p e where
  mono f g h := mul_le_mul_of_nonneg_left (h m p e hm he) hw
  scale c f := by ring
  limit f h := by simpa using (h m p e hm he).const_mul w

theorem sound_over {E : ℝ → Prop} {grid : List ℝ} {F : ℝ → Field} (hc : grid.IsChain (· ≤ ·))
    (h : ∀ x ∈ grid, Sound E (F x)) : Sound E fun f => Verif.over trapz grid fun x => F x f where
  mono f g hfg := over_le hc fun x hx => (h x hx).mono f g hfg
  scale c f := by
    rw [TargetField.over_mul]
    unfold Verif.over
    rw [List.map_congr_left fun x hx => (h x hx).scale c f]
  limit f hf := by
    have := Synchrotron.over_trapz_tendsto (g := fun _ => 0) grid fun x hx => (h x hx).limit f hf
    have e : Verif.over trapz grid (fun _ => (0 : ℝ)) = 0 := by
      have := TargetField.over_mul grid 0 fun _ => (1 : ℝ)
      simpa using this.symm
    rwa [e] at this

theorem diluted_nonneg (hk : k.Pos) {L x : ℝ} (hL : 0 ≤ L) : 0 ≤ diluted k L x := by
  have := hk.c
  have := Real.pi_pos
  unfold diluted
  positivity

theorem direction_range {y a b : ℝ} (h : y ^ 2 ≤ a) (hb : b = √a) : y / b ∈ Set.Icc (-1 : ℝ) 1 := by
  have h0 : |y| ≤ b := by rw [hb]; exact Real.abs_le_sqrt h
  rw [Set.mem_Icc, ← abs_le, abs_div]
  have hb0 : 0 ≤ b := (abs_nonneg y).trans h0
  rw [abs_of_nonneg hb0]
  exact div_le_one_of_le₀ h0 hb0

theorem sound_behind (hk : k.Pos) {L eps r : ℝ} (hL : 0 ≤ L) : Sound (· = eps) (behind k L eps r) :=
  sound_one (diluted_nonneg hk hL) ⟨by norm_num, le_rfl⟩ rfl

theorem sound_shell (hk : k.Pos) {L eps R r : ℝ} {mu phi : List ℝ} (hL : 0 ≤ L) (hmu : mu.IsChain (· < ·))
    (hphi : phi.IsChain (· < ·)) (hm : ∀ m ∈ mu, m ∈ Set.Icc (-1 : ℝ) 1) :
    Sound (· = eps) (shell k L eps R r mu phi) := by
  refine sound_over (hphi.imp fun _ _ h => h.le) fun p _ => sound_over (hmu.imp fun _ _ h => h.le) fun m hmm => ?_
  have hπ := Real.pi_pos
  refine sound_one (diluted_nonneg hk (by positivity)) (direction_range ?_ rfl) rfl
  have h1 : m ^ 2 ≤ 1 := by have := hm m hmm; nlinarith [this.1, this.2]
  nlinarith [mul_nonneg (sq_nonneg R) (sub_nonneg.2 h1)]

theorem sound_ring (hk : k.Pos) {L eps R r : ℝ} {phi : List ℝ} (hL : 0 ≤ L) (hphi : phi.IsChain (· < ·)) :
    Sound (· = eps) (ring k L eps R r phi) := by
  refine sound_over (hphi.imp fun _ _ h => h.le) fun p _ => ?_
  have hπ := Real.pi_pos
  exact sound_one (diluted_nonneg hk (by positivity)) (direction_range (by nlinarith [sq_nonneg R]) rfl) rfl

theorem sound_point (hk : k.Pos) {L eps px pz sx sy sz : ℝ} (hL : 0 ≤ L) :
    Sound (· = eps) (fromPoint k L eps px pz sx sy sz) :=
  sound_one (diluted_nonneg hk hL)
    (direction_range (by nlinarith [sq_nonneg (px - sx), sq_nonneg (0 - sy)]) rfl) rfl

/-- number density of the photons of a field -/
noncomputable def photons (k : Consts) (F : Field) : ℝ := F fun _ _ e => 1 / (e * (k.m_e * k.c ^ 2))

/-- photons per unit area on a path -/
noncomputable def column (k : Consts) (path : List ℝ) (F : ℝ → Field) : ℝ :=
  Verif.over trapz path fun l => photons k (F l)

/-- energy of the gamma ray, in units of the rest energy of the electron, at the redshift of the source -/
noncomputable def rayEnergy (k : Consts) (nu z : ℝ) : ℝ := (1 + z) * (k.h * nu / (k.m_e * k.c ^ 2))

theorem rayEnergy_pos (hk : k.Pos) {nu z : ℝ} (hn : 0 < nu) (hz : 0 ≤ z) : 0 < rayEnergy k nu z := by
  have := hk.h; have := hk.m_e; have := hk.c
  have : 0 < 1 + z := by linarith
  unfold rayEnergy
  positivity

theorem absorbed_le (hk : k.Pos) {E : ℝ → Prop} {F : Field} (hF : Sound E F) (hE : ∀ e, E e → 0 < e) {nu z mu_s C : ℝ}
    (h : ∀ e c, E e → c ∈ Set.Icc (-1 : ℝ) 1 → (1 - c) * sigma k (rayEnergy k nu z * e * (1 - c) / 2) ≤ C)
    (hs : mu_s ∈ Set.Icc (-1 : ℝ) 1) : absorbed k nu z mu_s F ≤ C * photons k F := by
  unfold absorbed photons
  rw [← hF.scale]
  refine hF.mono _ _ fun m p e hm he => ?_
  have h1 := h e _ he (C38_range hs hm p)
  have h2 := hE e he
  have := hk.m_e; have := hk.c
  unfold rayEnergy at h1
  rw [mul_one_div]
  exact div_le_div_of_nonneg_right h1 (by positivity)

theorem opacity_le (hk : k.Pos) {E : ℝ → Prop} {path : List ℝ} {F : ℝ → Field} (hp : path.IsChain (· ≤ ·))
    (hF : ∀ l ∈ path, Sound E (F l)) (hE : ∀ e, E e → 0 < e) {nu z mu_s C : ℝ}
    (h : ∀ e c, E e → c ∈ Set.Icc (-1 : ℝ) 1 → (1 - c) * sigma k (rayEnergy k nu z * e * (1 - c) / 2) ≤ C)
    (hs : mu_s ∈ Set.Icc (-1 : ℝ) 1) : opacity k nu z mu_s path F ≤ C * column k path F := by
  unfold opacity column
  rw [TargetField.over_mul]
  exact over_le hp fun l hl => absorbed_le hk (hF l hl) hE h hs

theorem largest_term (hk : k.Pos) {c s : ℝ} (hc : c ∈ Set.Icc (-1 : ℝ) 1) :
    (1 - c) * sigma k s ≤ 52 / 100 * k.sigma_T := by
  have h1 := C108_largest hk s
  have h2 := sigma_nonneg hk s
  nlinarith [hc.1, hc.2]

/-- the term of the opacity at high energies -/
theorem fall_term (hk : k.Pos) {c x : ℝ} (hc : c ∈ Set.Icc (-1 : ℝ) 1) (hx : 1 ≤ x) :
    (1 - c) * sigma k (x * (1 - c) / 2) ≤ 9 / 8 * k.sigma_T * (Real.log (4 * x) / x) := by
  have hσ := hk.sigma_T
  have hlog : 0 ≤ Real.log (4 * x) := Real.log_nonneg (by linarith)
  rcases lt_or_ge (x * (1 - c) / 2) 1 with h | h
  · rw [C41_below k h.le, mul_zero]; positivity
  · have h1 := C108_fall hk h
    have h2 : Real.log (4 * (x * (1 - c) / 2)) ≤ Real.log (4 * x) := by
      refine Real.log_le_log (by linarith) ?_
      nlinarith [hc.1]
    have h3 : x * (1 - c) / 2 * sigma k (x * (1 - c) / 2) ≤ 9 / 16 * k.sigma_T * Real.log (4 * x) :=
      h1.trans (mul_le_mul_of_nonneg_left h2 (by positivity))
    rw [← mul_div_assoc, le_div_iff₀ (by linarith)]
    linarith

theorem log_over_tendsto : Tendsto (fun x : ℝ => Real.log (4 * x) / x) atTop (𝓝 0) := by
  have h := (Real.isLittleO_log_id_atTop.tendsto_div_nhds_zero).comp (tendsto_id.const_mul_atTop (show (0 : ℝ) < 4 by norm_num))
  have h2 := h.const_mul 4
  rw [mul_zero] at h2
  refine h2.congr' ?_
  filter_upwards [eventually_gt_atTop 0] with x hx
  simp only [Function.comp, id]
  field_simp

theorem term_tendsto (hk : k.Pos) {c e z : ℝ} (hc : c ∈ Set.Icc (-1 : ℝ) 1) (he : 0 < e) (hz : 0 ≤ z) :
    Tendsto (fun nu => (1 - c) * sigma k (rayEnergy k nu z * e * (1 - c) / 2)) atTop (𝓝 0) := by
  have h1 := hk.h; have h2 := hk.m_e; have h3 := hk.c
  have hz' : 0 < 1 + z := by linarith
  have ht : Tendsto (fun nu => rayEnergy k nu z * e) atTop atTop := by
    have : (fun nu => rayEnergy k nu z * e) = fun nu => ((1 + z) * k.h / (k.m_e * k.c ^ 2) * e) * nu := by
      funext nu; unfold rayEnergy; ring
    rw [this]
    exact tendsto_id.const_mul_atTop (by positivity)
  have hl := (log_over_tendsto.comp ht).const_mul (9 / 8 * k.sigma_T)
  rw [mul_zero] at hl
  refine squeeze_zero' ?_ ?_ hl
  · exact Eventually.of_forall fun nu => mul_nonneg (by linarith [hc.2]) (sigma_nonneg hk _)
  · filter_upwards [ht.eventually_ge_atTop 1] with nu hnu
    exact fall_term hk hc hnu

theorem opacity_tendsto (hk : k.Pos) {E : ℝ → Prop} {path : List ℝ} {F : ℝ → Field}
    (hF : ∀ l ∈ path, Sound E (F l)) (hE : ∀ e, E e → 0 < e) {z mu_s : ℝ} (hz : 0 ≤ z)
    (hs : mu_s ∈ Set.Icc (-1 : ℝ) 1) : Tendsto (fun nu => opacity k nu z mu_s path F) atTop (𝓝 0) := by
  unfold opacity
  have e : Verif.over trapz path (fun _ => (0 : ℝ)) = 0 := by
    have := TargetField.over_mul path 0 fun _ => (1 : ℝ)
    simpa using this.symm
  rw [← e]
  refine Synchrotron.over_trapz_tendsto path fun l hl => ?_
  unfold absorbed
  refine (hF l hl).limit _ fun m p ee hm he => ?_
  have := (term_tendsto hk (C38_range hs hm p) (hE ee he) hz).div_const (ee * (k.m_e * k.c ^ 2))
  rw [zero_div] at this
  exact this

/-! ### targets -/

theorem annulus_nonneg (hk : k.Pos) {t : SSDisk} {r : ℝ} (ht : DiskOK t r) {R : ℝ} (hR : t.R_in ≤ R) :
    0 ≤ annulus k t R := by
  have hR0 : 0 < R := lt_of_lt_of_le ht.R_in hR
  have hw : 0 ≤ 1 - √(t.R_in / R) := by
    have : √(t.R_in / R) ≤ 1 := Real.sqrt_le_one.2 ((div_le_one hR0).2 hR)
    linarith
  have := hk.G; have := hk.c; have := ht.M_BH; have := ht.L_disk; have := ht.eta
  have := Real.pi_pos
  unfold annulus
  exact mul_nonneg (by positivity) hw

theorem sound_annuli (hk : k.Pos) {t : SSDisk} {r : ℝ} (ht : DiskOK t r) {n : ℕ} (hn : 2 ≤ n) {phi : List ℝ}
    (hphi : phi.IsChain (· < ·)) (l : ℝ) :
    Sound (0 < ·) (annuli k t l (linspace t.R_in t.R_out n) phi) := by
  refine sound_over (hphi.imp fun _ _ h => h.le) fun p _ =>
    sound_over ((linspace_strict ht.R_out hn).imp fun _ _ h => h.le) fun R hR => ?_
  have h1 := (linspace_mem ht.R_out.le hn hR).1
  refine sound_one (diluted_nonneg hk (annulus_nonneg hk ht h1)) (direction_range (by nlinarith [sq_nonneg R]) rfl) ?_
  exact disk_eps_pos hk ht.L_disk ht.M_BH ht.eta (div_pos (ht.R_in.trans_le h1) (diskRg_pos hk ht))

/-- the points of the path of the gamma ray -/
noncomputable def rayPath (a : Abs) (r : ℝ) : List ℝ := open Classical in
  if a.mu_s = 1 then alignedPath a r else obliquePath a r

/-- the photons at a point of the path, for all targets but the blob itself -/
noncomputable def rayField (k : Consts) (a : Abs) (r l : ℝ) : Field := open Classical in
  if a.mu_s = 1 then
    match a.target with
    | .disk t => annuli k t l (linspace t.R_in t.R_out 100) a.phi
    | _ => alignedField k a l
  else obliqueField k a r l

/-- the photon energies of a target -/
def energies (k : Consts) (t : Target) (e : ℝ) : Prop :=
  match t with
  | .ps t => e = t.epsilon_0
  | .blr t => e = t.epsilon_line
  | .dt t => e = t.epsilon_dt k
  | _ => 0 < e

variable {a : Abs} {nu r : ℝ}

theorem ray_sound (h : Setup k a nu) (ht : TargetOK k a) (hr : a.r = some r) (l : ℝ) :
    Sound (energies k a.target) (rayField k a r l) := by
  have hk := h.consts
  have hπ := Real.pi_pos
  obtain ⟨target, r', z, mu_s, mu, phi, l_size⟩ := a
  have hmu := h.mu; have hphi := h.phi; have hmr := h.mu_range
  simp only at hr hmu hphi hmr
  subst hr
  have zero : Sound (0 < ·) (fun _ => 0) := ⟨fun _ _ _ => le_rfl, fun _ _ => by simp, fun _ _ => tendsto_const_nhds⟩
  unfold rayField
  by_cases hm : mu_s = 1
  · simp only [hm, if_true]
    rcases target with b | t | t | t | t | _
    · exact zero
    · exact sound_behind hk (by have := ht.1.L_0; positivity)
    · exact sound_annuli hk ht (by norm_num) hphi l
    · have := ht.1.L_disk; have := ht.1.xi_line
      exact sound_shell hk (by positivity) hmu hphi hmr
    · have := ht.1.L_disk; have := ht.1.xi_dt
      exact sound_ring hk (by positivity) hphi
    · exact zero
  · simp only [hm, if_false]
    rcases target with b | t | t | t | t | _
    · exact zero
    · exact sound_point hk (by have := ht.1.L_0; positivity)
    · exact zero
    · have := ht.1.L_disk; have := ht.1.xi_line
      exact sound_over (hphi.imp fun _ _ h => h.le) fun p _ => sound_over (hmu.imp fun _ _ h => h.le) fun m _ =>
        sound_point hk (by positivity)
    · have := ht.1.L_disk; have := ht.1.xi_dt
      exact sound_over (hphi.imp fun _ _ h => h.le) fun p _ => sound_point hk (by positivity)
    · exact zero

theorem energies_pos (h : Setup k a nu) (ht : TargetOK k a) (hr : a.r = some r) (e : ℝ) (he : energies k a.target e) :
    0 < e := by
  obtain ⟨target, r', z, mu_s, mu, phi, l_size⟩ := a
  simp only at hr
  subst hr
  rcases target with b | t | t | t | t | _
  · exact he
  · rw [show e = t.epsilon_0 from he]; exact ht.1.epsilon_0
  · exact he
  · rw [show e = t.epsilon_line from he]; exact ht.1.epsilon_line
  · rw [show e = t.epsilon_dt k from he]; exact dt_eps_pos h.consts ht.1
  · exact he

theorem ray_chain (h : Setup k a nu) (ht : TargetOK k a) (hr : a.r = some r) (hb : ∀ b, a.target ≠ .blob b)
    (ho : a.target ≠ .other) : (rayPath a r).IsChain (· ≤ ·) := by
  have hl := h.l_size
  have hl' := h.l_size_le
  have hl2 : 2 ≤ 2 * a.l_size := by omega
  obtain ⟨target, r', z, mu_s, mu, phi, l_size⟩ := a
  simp only at hr hl hl' hl2
  subst hr
  unfold rayPath
  have hr0 : 0 < r := by
    rcases target with b | t | t | t | t | _
    · exact absurd rfl (hb b)
    · exact ht.1.r
    · exact ht.r
    · exact ht.1.r
    · exact ht.1.r
    · exact absurd rfl ho
  by_cases hm : mu_s = 1
  · simp only [hm, if_true]
    rcases target with b | t | t | t | t | _
    case blr => exact (guardPath_chain hl hl' hr0 ht.1.R_line).imp fun _ _ h => h.le
    all_goals exact path_chain (by norm_num) hl hr0.le
  · simp only [hm, if_false]
    rcases target with b | t | t | t | t | _
    case blr => exact guardPathMuS_chain (path_chain (by norm_num) hl2 hr0.le) _ _ _
    case ps => exact path_chain (by norm_num) (by norm_num) hr0.le
    all_goals exact path_chain (by norm_num) hl2 hr0.le

/-- the opacity of a target: between zero and that of its field -/
theorem tau_ray (h : Setup k a nu) (ht : TargetOK k a) (hr : a.r = some r) (hb : ∀ b, a.target ≠ .blob b) {t : ℝ}
    (e : tau k a nu = some t) : t ≤ opacity k nu a.z a.mu_s (rayPath a r) (rayField k a r) := by
  have hnn := C43_nonneg h ht e
  obtain ⟨target, r', z, mu_s, mu, phi, l_size⟩ := a
  simp only at hr
  subst hr
  unfold rayPath rayField
  by_cases hm : mu_s = 1
  · simp only [hm, if_true]
    rcases target with b | u | u | u | u | _
    · exact absurd rfl (hb b)
    · have := C83_opacity_aligned h hm rfl (Or.inl ⟨u, rfl⟩)
      rw [this, Option.some.injEq] at e
      rw [← e]
      simp only [hm]
      exact le_rfl
    · subst hm
      simp only [tau, if_true, Option.getD_some, Option.some.injEq] at e
      have h2 := (C83_disk_opacity_bounds h ht (n := 100) (by norm_num)).2
      have hR := TargetOK.eq_def k _ ▸ ht
      have hr0 := DiskOK.r ht
      have hRi := DiskOK.R_in ht
      have hlt : (10 ^ 5 * r) / √(u.R_in ^ 2 + (10 ^ 5 * r) ^ 2) ≤ 1 :=
        div_le_one_of_le₀ (Real.le_sqrt_of_sq_le (by nlinarith [pow_pos hRi 2])) (by positivity)
      have hp : 0 < (10 ^ 5 * r) / √(u.R_in ^ 2 + (10 ^ 5 * r) ^ 2) := by positivity
      simp only at h2
      rw [e] at h2
      have e2 : alignedPath ⟨.disk u, some r, z, 1, mu, phi, l_size⟩ r = (logspace 0 5 l_size).map (· * r) := rfl
      rw [e2]
      revert h2 hlt hp
      generalize (10 ^ 5 * r) / √(u.R_in ^ 2 + (10 ^ 5 * r) ^ 2) = q
      generalize opacity k nu z 1 _ _ = P
      intro h1 h3 h4
      have hP : 0 ≤ P := by
        by_contra hc
        have : q * P < 0 := mul_neg_of_pos_of_neg h4 (not_le.1 hc)
        linarith
      nlinarith
    · have hoff : ∀ l ∈ alignedPath ⟨.blr u, some r, z, mu_s, mu, phi, l_size⟩ r, ∀ m ∈ mu,
          0 < xReShell m u.R_line l := fun l hl m hmm =>
        shell_pos (by linarith [ht.1.R_line])
          (guardPath_pos (path_pos (a := 0) (b := 5) (n := l_size) ht.1.r) (by linarith [ht.1.R_line]) l hl) (ht.2.1 l hl)
          (h.mu_range m hmm).2
      have := C83_opacity_aligned h hm rfl (Or.inr (Or.inl ⟨u, rfl, hoff⟩))
      rw [this, Option.some.injEq] at e
      rw [← e]
      simp only [hm]
      exact le_rfl
    · have := C83_opacity_aligned h hm rfl (Or.inr (Or.inr ⟨u, rfl⟩))
      rw [this, Option.some.injEq] at e
      rw [← e]
      simp only [hm]
      exact le_rfl
    · simp [tau, hm] at e
  · simp only [hm, if_false]
    rcases target with b | u | u | u | u | _
    · exact absurd rfl (hb b)
    · have := C83_opacity_oblique h hm rfl (Or.inl ⟨u, rfl, ht.1⟩)
      rw [this, Option.some.injEq] at e
      exact e.ge
    · simp [tau, hm] at e
    · have := C83_opacity_oblique h hm rfl (Or.inr (Or.inl ⟨u, rfl⟩))
      rw [this, Option.some.injEq] at e
      exact e.ge
    · have := C83_opacity_oblique h hm rfl (Or.inr (Or.inr ⟨u, rfl⟩))
      rw [this, Option.some.injEq] at e
      exact e.ge
    · simp [tau, hm] at e

/-- **C108** (column).  The opacity of the photons of a target is at most twice the largest cross-section, for photons met
head-on, times their column on the path. -/
theorem C108_column (h : Setup k a nu) (ht : TargetOK k a) (hr : a.r = some r) (hb : ∀ b, a.target ≠ .blob b) {t : ℝ}
    (e : tau k a nu = some t) : t ≤ 52 / 100 * k.sigma_T * column k (rayPath a r) (rayField k a r) := by
  have ho : a.target ≠ .other := fun ho => by
    rw [(C43_none k a nu).2 (Or.inl ho)] at e; cases e
  exact (tau_ray h ht hr hb e).trans (opacity_le h.consts (ray_chain h ht hr hb ho) (fun l _ => ray_sound h ht hr l)
    (energies_pos h ht hr) (fun _ _ _ hc => largest_term h.consts hc) h.mu_s)

/-- **C108** (highest energies).  Far above the threshold of a line or of the torus the opacity falls with the energy. -/
theorem C108_high (h : Setup k a nu) (ht : TargetOK k a) (hr : a.r = some r) (hb : ∀ b, a.target ≠ .blob b)
    (hd : ∀ d, a.target ≠ .disk d) {t : ℝ} (e : tau k a nu = some t) {eps : ℝ} (he : energies k a.target eps)
    (hx : 1 ≤ rayEnergy k nu a.z * eps) :
    t ≤ 9 / 8 * k.sigma_T * (Real.log (4 * (rayEnergy k nu a.z * eps)) / (rayEnergy k nu a.z * eps))
      * column k (rayPath a r) (rayField k a r) := by
  have ho : a.target ≠ .other := fun ho => by
    rw [(C43_none k a nu).2 (Or.inl ho)] at e; cases e
  have hone : ∀ e', energies k a.target e' → e' = eps := by
    intro e' he'
    revert he he'
    generalize a.target = T at hb hd ho
    cases T with
    | blob b => exact absurd rfl (hb b)
    | disk d => exact absurd rfl (hd d)
    | other => exact absurd rfl ho
    | ps u => intro (h1 : _ = _) (h2 : _ = _); rw [h1, h2]
    | blr u => intro (h1 : _ = _) (h2 : _ = _); rw [h1, h2]
    | dt u => intro (h1 : _ = _) (h2 : _ = _); rw [h1, h2]
  refine (tau_ray h ht hr hb e).trans (opacity_le h.consts (ray_chain h ht hr hb ho) (fun l _ => ray_sound h ht hr l)
    (energies_pos h ht hr) (fun e' c he' hc => ?_) h.mu_s)
  rw [hone e' he']
  exact fall_term h.consts hc hx

/-- the opacity of the synchrotron photons, without the lists in between -/
theorem tauSynch_eq (b : Blob) (nu : ℝ) (n : ℕ) :
    tauSynch k b nu n (1 / 100)
      = 2 * b.R_b * trapz ((synchFrequencies k b n (1 / 100)).map fun x => 3 * b.d_L ^ 2
          * Synchrotron.sedFlux k trapz true (x * b.delta_D / (1 + b.z)) b.z b.d_L b.delta_D b.B b.R_b b.n_e b.gamma_e
          / (k.c * b.R_b ^ 2 * b.delta_D ^ 4 * nuToEps k (x * b.delta_D / (1 + b.z)) b.z b.delta_D ^ 2 * k.m_e * k.c ^ 2)
          * (3 / 4)
          * sigma k (nuToEps k (x * b.delta_D / (1 + b.z)) b.z b.delta_D * nuToEps k nu b.z b.delta_D / 2))
        ((synchFrequencies k b n (1 / 100)).map fun x => nuToEps k (x * b.delta_D / (1 + b.z)) b.z b.delta_D) := by
  unfold tauSynch
  simp only [List.map_map, List.zipWith_map, List.zipWith_self, Function.comp_def]

/-- number of synchrotron photons per volume in the blob, self-absorption included, summed as the code does: the energy
density over the energy of a photon -/
noncomputable def synchPhotons (k : Consts) (b : Blob) (n : ℕ) : ℝ :=
  trapz ((synchFrequencies k b n (1 / 100)).map fun x =>
      let nu := x * b.delta_D / (1 + b.z)
      let eps := nuToEps k nu b.z b.delta_D
      uPhSynchDiff k b.R_b b.d_L b.delta_D eps
        (Synchrotron.sedFlux k trapz true nu b.z b.d_L b.delta_D b.B b.R_b b.n_e b.gamma_e) / (eps * k.mec2))
    ((synchFrequencies k b n (1 / 100)).map fun x => nuToEps k (x * b.delta_D / (1 + b.z)) b.z b.delta_D)

theorem synch_chain {b : Blob} (h : BlobOK k b) {n : ℕ} (hn : 2 ≤ n) :
    ((synchFrequencies k b n (1 / 100)).map fun x => nuToEps k (x * b.delta_D / (1 + b.z)) b.z b.delta_D).IsChain
      (· ≤ ·) := by
  have hz : 0 < 1 + b.z := by linarith [h.z]
  have hd := h.delta
  have hkc := h.consts.c; have hkm := h.consts.m_e; have hkh := h.consts.h
  rw [List.isChain_iff_pairwise, List.pairwise_map]
  refine (synchFrequencies_pairwise h hn).imp fun {x y} hxy => ?_
  unfold nuToEps Consts.mec2
  gcongr

/-- **C108** (blob).  The opacity of the synchrotron photons of the blob: two radii of them at most. -/
theorem C108_blob {b : Blob} (h : BlobOK k b) (nu : ℝ) {n : ℕ} (hn : 2 ≤ n) :
    tauSynch k b nu n (1 / 100) ≤ 26 / 100 * k.sigma_T * (2 * b.R_b * synchPhotons k b n) := by
  have hz : 0 < 1 + b.z := by linarith [h.z]
  have hd := h.delta
  have hR := h.R_b
  have hL := h.d_L
  have hkc := h.consts.c; have hkm := h.consts.m_e; have hkh := h.consts.h
  have hpos : ∀ x ∈ synchFrequencies k b n (1 / 100), 0 < x := logspace_pos
  rw [tauSynch_eq, mul_left_comm (26 / 100 * k.sigma_T)]
  refine mul_le_mul_of_nonneg_left ?_ (by positivity)
  unfold synchPhotons
  rw [← C33_trapz_scale, List.map_map]
  refine trapz_mono _ _ _ _ (synch_chain h hn) fun x hx => ?_
  have h0 := hpos x hx
  have h1 := Synchrotron.C51_blob_pos h.grid h.nonempty
    (h.physical (nu := x * b.delta_D / (1 + b.z)) (by positivity)) true
  have h2 : 0 < nuToEps k (x * b.delta_D / (1 + b.z)) b.z b.delta_D :=
    Synchrotron.nuToEps_pos h.consts (by positivity) h.z hd
  simp only [Function.comp]
  unfold uPhSynchDiff Consts.mec2
  generalize Synchrotron.sedFlux k trapz true _ _ _ _ _ _ _ _ = S at h1
  generalize nuToEps k (x * b.delta_D / (1 + b.z)) b.z b.delta_D = E at h2
  have e : 26 / 100 * k.sigma_T * (3 * b.d_L ^ 2 * S / (k.c * b.R_b ^ 2 * b.delta_D ^ 4 * E) * (3 / 4)
        / (E * (k.m_e * k.c ^ 2)))
      = 3 * b.d_L ^ 2 * S / (k.c * b.R_b ^ 2 * b.delta_D ^ 4 * E ^ 2 * k.m_e * k.c ^ 2) * (3 / 4)
        * (26 / 100 * k.sigma_T) := by
    field_simp
  rw [e]
  exact mul_le_mul_of_nonneg_left (C108_largest h.consts _) (by positivity)

theorem blob_tendsto {b : Blob} (h : BlobOK k b) (n : ℕ) :
    Tendsto (fun nu => tauSynch k b nu n (1 / 100)) atTop (𝓝 0) := by
  have hz : 0 < 1 + b.z := by linarith [h.z]
  have hd := h.delta
  have hkc := h.consts.c; have hkm := h.consts.m_e; have hkh := h.consts.h
  have hpos : ∀ x ∈ synchFrequencies k b n (1 / 100), 0 < x := logspace_pos
  simp only [tauSynch_eq]
  have key := tendsto_trapz (l := atTop) (synchFrequencies k b n (1 / 100))
    (x := fun x (_ : ℝ) => nuToEps k (x * b.delta_D / (1 + b.z)) b.z b.delta_D)
    (x₀ := fun x => nuToEps k (x * b.delta_D / (1 + b.z)) b.z b.delta_D)
    (y := fun x nu => 3 * b.d_L ^ 2
          * Synchrotron.sedFlux k trapz true (x * b.delta_D / (1 + b.z)) b.z b.d_L b.delta_D b.B b.R_b b.n_e b.gamma_e
          / (k.c * b.R_b ^ 2 * b.delta_D ^ 4 * nuToEps k (x * b.delta_D / (1 + b.z)) b.z b.delta_D ^ 2 * k.m_e * k.c ^ 2)
          * (3 / 4)
          * sigma k (nuToEps k (x * b.delta_D / (1 + b.z)) b.z b.delta_D * nuToEps k nu b.z b.delta_D / 2))
    (y₀ := fun _ => 0) (fun _ _ => tendsto_const_nhds) (fun x hx => by
      have h0 := hpos x hx
      have h2 : 0 < nuToEps k (x * b.delta_D / (1 + b.z)) b.z b.delta_D :=
        Synchrotron.nuToEps_pos h.consts (by positivity) h.z hd
      have ht := term_tendsto h.consts (c := 0) (e := nuToEps k (x * b.delta_D / (1 + b.z)) b.z b.delta_D / b.delta_D)
        ⟨by norm_num, by norm_num⟩ (div_pos h2 hd) h.z
      have h3 := ht.const_mul (3 * b.d_L ^ 2
          * Synchrotron.sedFlux k trapz true (x * b.delta_D / (1 + b.z)) b.z b.d_L b.delta_D b.B b.R_b b.n_e b.gamma_e
          / (k.c * b.R_b ^ 2 * b.delta_D ^ 4 * nuToEps k (x * b.delta_D / (1 + b.z)) b.z b.delta_D ^ 2 * k.m_e * k.c ^ 2)
          * (3 / 4))
      rw [mul_zero] at h3
      refine h3.congr fun nu => ?_
      have e : rayEnergy k nu b.z * (nuToEps k (x * b.delta_D / (1 + b.z)) b.z b.delta_D / b.delta_D) * (1 - 0) / 2
          = nuToEps k (x * b.delta_D / (1 + b.z)) b.z b.delta_D * nuToEps k nu b.z b.delta_D / 2 := by
        generalize nuToEps k (x * b.delta_D / (1 + b.z)) b.z b.delta_D = E
        unfold rayEnergy nuToEps Consts.mec2
        field_simp
        ring
      rw [e, sub_zero, one_mul])
  have e0 : ∀ (l : List ℝ) (xs : List ℝ), trapz (l.map fun _ => (0 : ℝ)) xs = 0 := by
    intro l xs
    have := C33_trapz_scale 0 (l.map fun _ => (1 : ℝ)) xs
    simpa using this
  rw [e0] at key
  simpa using key.const_mul (2 * b.R_b)

/-- **C108** (transparency).  Gamma rays of the highest energies are not absorbed. -/
theorem C108_transparent (h : Setup k a nu) (ht : TargetOK k a) :
    Tendsto (fun nu => (tau k a nu).getD 0) atTop (𝓝 0)
    ∧ Tendsto (fun nu => ((absorption k a nu).getD 1)) atTop (𝓝 1) := by
  have key : Tendsto (fun nu => (tau k a nu).getD 0) atTop (𝓝 0) := by
    by_cases hb : ∃ b, a.target = .blob b
    · obtain ⟨b, hb⟩ := hb
      have hB : BlobOK k b := by unfold TargetOK at ht; rw [hb] at ht; exact ht
      have e : ∀ nu, (tau k a nu).getD 0 = tauSynch k b nu 200 (1 / 100) := by
        intro nu; unfold tau; rw [hb]; rfl
      simp only [e]
      exact blob_tendsto hB 200
    · by_cases ho : tau k a 1 = none
      · have e : ∀ nu, (tau k a nu).getD 0 = 0 := fun nu => by
          rw [(C43_none k a nu).2 ((C43_none k a 1).1 ho)]; rfl
        simp only [e]
        exact tendsto_const_nhds
      · obtain ⟨r, hr⟩ : ∃ r, a.r = some r := by
          cases hr : a.r with
          | some r => exact ⟨r, rfl⟩
          | none =>
            exfalso
            unfold TargetOK at ht
            rw [hr] at ht
            have ho' : a.target ≠ .other := fun e => ho ((C43_none k a 1).2 (Or.inl e))
            generalize a.target = T at ht hb ho'
            cases T with
            | blob b => exact hb ⟨b, rfl⟩
            | other => exact ho' rfl
            | ps u => exact ht
            | disk u => exact ht
            | blr u => exact ht
            | dt u => exact ht
        have hS : ∀ nu, 0 < nu → Setup k a nu := fun nu hn => { h with nu := hn }
        have hb' : ∀ b, a.target ≠ .blob b := fun b e => hb ⟨b, e⟩
        refine squeeze_zero' ?_ ?_ (opacity_tendsto h.consts (path := rayPath a r) (fun l _ => ray_sound h ht hr l)
          (energies_pos h ht hr) h.z h.mu_s)
        · filter_upwards [eventually_gt_atTop 0] with nu hn
          cases e : tau k a nu with
          | none => exact le_rfl
          | some t => exact C43_nonneg (hS nu hn) ht e
        · filter_upwards [eventually_gt_atTop 0] with nu hn
          cases e : tau k a nu with
          | none => exact absurd ((C43_none k a 1).2 ((C43_none k a nu).1 e)) ho
          | some t => exact tau_ray (hS nu hn) ht hr hb' e
  refine ⟨key, ?_⟩
  have h2 := (Real.continuous_exp.tendsto _).comp key.neg
  rw [neg_zero, Real.exp_zero] at h2
  refine h2.congr fun nu => ?_
  unfold absorption
  simp only [Function.comp]
  cases tau k a nu <;> simp

/-- photons of one energy: their energy density over that energy -/
theorem photons_line {e : ℝ} {F : Field} (h : Sound (· = e) F) : photons k F = total F / (e * (k.m_e * k.c ^ 2)) := by
  have e1 := h.scale (1 / (e * (k.m_e * k.c ^ 2))) fun _ _ _ => 1
  unfold photons total
  rw [div_eq_mul_one_div, mul_comm (F _), ← e1]
  exact le_antisymm (h.mono _ _ fun m p e' _ he => by rw [he, mul_one]) (h.mono _ _ fun m p e' _ he => by rw [he, mul_one])

/-- **C108** (densities).  The photons that `u` reports for the torus and for the source behind the jet bound the opacity
to gamma rays along the jet: 0.52 sigma_T times their column. -/
theorem C108_density (h : Setup k a nu) (ht : TargetOK k a) (hr : a.r = some r) (hm : a.mu_s = 1)
    (hphi : Compton.FullCircle a.phi) {t : ℝ} (e : tau k a nu = some t) :
    (∀ d, a.target = .dt d → t ≤ 52 / 100 * k.sigma_T * Verif.over trapz ((logspace 0 5 a.l_size).map (· * r)) fun l =>
      d.u k l none / (d.epsilon_dt k * (k.m_e * k.c ^ 2)))
    ∧ ∀ p, a.target = .ps p → t ≤ 52 / 100 * k.sigma_T * Verif.over trapz ((logspace 0 5 a.l_size).map (· * r)) fun l =>
      p.u k l none / (p.epsilon_0 * (k.m_e * k.c ^ 2)) := by
  have hs := ray_sound h ht hr
  refine ⟨fun d hd => ?_, fun p hp => ?_⟩
  · have := C108_column h ht hr (by rw [hd]; simp) e
    refine this.trans_eq ?_
    unfold column
    have e1 : rayPath a r = (logspace 0 5 a.l_size).map (· * r) := by
      unfold rayPath alignedPath
      rw [if_pos hm, hd]
    rw [e1]
    congr 1
    refine over_congr fun l _ => ?_
    have e2 : rayField k a r l = ring k (d.xi_dt * d.L_disk) (d.epsilon_dt k) d.R_dt l a.phi := by
      unfold rayField alignedField
      rw [if_pos hm, hd]
    have h1 := hs l
    rw [e2, hd] at h1
    rw [e2, photons_line h1, C83_dt_density k d l hphi]
  · have := C108_column h ht hr (by rw [hp]; simp) e
    refine this.trans_eq ?_
    unfold column
    have e1 : rayPath a r = (logspace 0 5 a.l_size).map (· * r) := by
      unfold rayPath alignedPath
      rw [if_pos hm, hp]
    rw [e1]
    congr 1
    refine over_congr fun l _ => ?_
    have e2 : rayField k a r l = behind k p.L_0 p.epsilon_0 l := by
      unfold rayField alignedField
      rw [if_pos hm, hp]
    have h1 := hs l
    rw [e2, hp] at h1
    rw [e2, photons_line h1, C83_ps_density k p l]

/-! ### cases meeting the hypotheses -/

theorem demo_setup : Setup unitConsts demoDT 5 :=
  setup_new unitConsts_pos (t := .dt ⟨1, 1 / 10, 1, 3⟩) (r := some 2) (by norm_num) (by norm_num)
    (by norm_num : (1 / 2 : ℝ) ∈ Set.Icc (-1) 1) rfl

theorem demo_target : TargetOK unitConsts demoDT :=
  ⟨⟨by norm_num, by norm_num, by norm_num, by norm_num, by norm_num⟩, fun u hu _ _ =>
    ring_path_pos (by norm_num) (path_pos (by norm_num) u hu) (by norm_num [demoDT]) (by norm_num [demoDT])⟩

example : ∃ t, tau unitConsts demoDT 5 = some t
    ∧ t ≤ 52 / 100 * 1 * column unitConsts (rayPath demoDT 2) (rayField unitConsts demoDT 2) := by
  have e : tau unitConsts demoDT 5 = some ((tau unitConsts demoDT 5).getD 0) := by
    have : tau unitConsts demoDT 5 ≠ none := fun h => by
      rcases (C43_none _ _ _).1 h with h | ⟨⟨_, h⟩, _⟩ <;> simp [demoDT] at h
    obtain ⟨x, hx⟩ := Option.ne_none_iff_exists'.1 this
    rw [hx]; rfl
  exact ⟨_, e, C108_column demo_setup demo_target rfl (by simp [demoDT]) e⟩

example : Tendsto (fun nu => (tau unitConsts demoDT nu).getD 0) atTop (𝓝 0) :=
  (C108_transparent demo_setup demo_target).1

/-- the largest cross-section is met, up to four percent -/
example : (25 : ℝ) / 100 ≤ sigma unitConsts 2 ∧ sigma unitConsts 2 ≤ 26 / 100 := by
  have h1 := C108_peak unitConsts_pos
  have h2 := C108_largest unitConsts_pos 2
  simp only [unitConsts, mul_one] at h1 h2 ⊢
  exact ⟨h1, h2⟩

end Verif.Absorption
