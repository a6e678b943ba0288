import Verif.Props.TEConvergence

/-
C109: the number of particles in the arrays returned by a time evolution with acceleration and losses.
-/

namespace Verif.TE

open Set MathUtils

/-- the number of particles per volume in the arrays: `np.trapz(density, gamma)` -/
noncomputable def number (r : Result ℝ) : ℝ := trapz r.density r.gamma

/-- two arrays, the second bounded by `K`, that differ by at most `e` in every element -/
def Near (K e : ℝ) : List ℝ → List ℝ → Prop := List.Forall₂ fun a b => |a - b| ≤ e ∧ |b| ≤ K

theorem trapz_near {K e : ℝ} (he : 0 ≤ e) (he1 : e ≤ 1) (hK : 0 ≤ K) :
    ∀ {xs xs' ys ys' : List ℝ}, Near K e xs xs' → Near K e ys ys' →
      |trapz ys xs - trapz ys' xs'| ≤ xs.length * (4 * K + 2) * e := by
  intro xs
  induction xs with
  | nil =>
    intro xs' ys ys' hx _
    cases hx
    cases ys <;> cases ys' <;> simp [trapz]
  | cons x0 xs ih =>
    intro xs' ys ys' hx hy
    have hp : 0 ≤ (xs.length + 1 : ℝ) * (4 * K + 2) * e := by positivity
    cases hx with
    | cons h0 hx =>
      cases hy with
      | nil => simpa [trapz] using hp
      | cons k0 hy =>
        cases hx with
        | nil =>
          cases hy <;> simpa [trapz] using hp
        | cons h1 hx =>
          cases hy with
          | nil => simpa [trapz] using hp
          | cons k1 hy =>
            rename_i x0' y0 y0' x1 x1' xs xs' y1 y1' ys ys'
            have key := ih (List.Forall₂.cons h1 hx) (List.Forall₂.cons k1 hy)
            have e1 : trapz (y0 :: y1 :: ys) (x0 :: x1 :: xs) - trapz (y0' :: y1' :: ys') (x0' :: x1' :: xs')
                = ((x1 - x0) * (y0 + y1) / 2 - (x1' - x0') * (y0' + y1') / 2)
                  + (trapz (y1 :: ys) (x1 :: xs) - trapz (y1' :: ys') (x1' :: xs')) := by
              simp only [trapz]
              ring
            have e2 : |(x1 - x0) * (y0 + y1) / 2 - (x1' - x0') * (y0' + y1') / 2| ≤ (4 * K + 2) * e := by
              have : (x1 - x0) * (y0 + y1) / 2 - (x1' - x0') * (y0' + y1') / 2
                  = ((x1 - x1') - (x0 - x0')) * ((y0' + y1') / 2)
                    + ((x1' - x0') + ((x1 - x1') - (x0 - x0'))) * (((y0 - y0') + (y1 - y1')) / 2) := by ring
              rw [this]
              have a1 : |(x1 - x1') - (x0 - x0')| ≤ 2 * e := (abs_sub _ _).trans (by linarith [h0.1, h1.1])
              have a2 : |(y0' + y1') / 2| ≤ K := by
                rw [abs_div, abs_two]
                have := abs_add_le y0' y1'
                linarith [k0.2, k1.2]
              have a3 : |((y0 - y0') + (y1 - y1')) / 2| ≤ e := by
                rw [abs_div, abs_two]
                have := abs_add_le (y0 - y0') (y1 - y1')
                linarith [k0.1, k1.1]
              have a4 : |x1' - x0'| ≤ 2 * K := (abs_sub _ _).trans (by linarith [h0.2, h1.2])
              have a5 : |(x1' - x0') + ((x1 - x1') - (x0 - x0'))| ≤ 2 * K + 2 := (abs_add_le _ _).trans (by linarith)
              refine (abs_add_le _ _).trans ?_
              rw [abs_mul, abs_mul]
              have b1 := mul_le_mul a1 a2 (abs_nonneg _) (by positivity)
              have b2 := mul_le_mul a5 a3 (abs_nonneg _) (by positivity)
              linarith
            rw [e1]
            refine (abs_add_le _ _).trans ((add_le_add e2 key).trans_eq ?_)
            simp only [List.length_cons]
            push_cast
            ring

theorem near_of_getD {K e : ℝ} {l : List ℝ} {F : ℝ → ℝ} {r : List ℝ} (hl : r.length = l.length)
    (h : ∀ j, j < l.length → |r.getD j 0 - F (l.getD j 0)| ≤ e) (hK : ∀ x ∈ l, |F x| ≤ K) : Near K e r (l.map F) := by
  induction l generalizing r with
  | nil =>
    rw [List.length_nil, List.length_eq_zero_iff] at hl
    subst hl
    exact List.Forall₂.nil
  | cons x l ih =>
    cases r with
    | nil => simp at hl
    | cons y r =>
      refine List.Forall₂.cons ⟨by simpa using h 0 (by simp), hK x (by simp)⟩ (ih (by simpa using hl) (fun j hj => ?_)
        fun z hz => hK z (List.mem_cons_of_mem _ hz))
      simpa using h (j + 1) (by simpa using hj)

theorem list_bound (l : List ℝ) (F : ℝ → ℝ) : ∃ K, 0 ≤ K ∧ ∀ x ∈ l, |F x| ≤ K := by
  induction l with
  | nil => exact ⟨0, le_rfl, by simp⟩
  | cons x l ih =>
    obtain ⟨K, hK, h⟩ := ih
    refine ⟨max K |F x|, hK.trans (le_max_left _ _), fun y hy => ?_⟩
    rcases List.mem_cons.1 hy with rfl | hy
    · exact le_max_right _ _
    · exact (h y hy).trans (le_max_left _ _)

/-- a run close to the solutions has as many particles as they have, up to the step -/
theorem number_close (g0 : List ℝ) (G M : ℝ → ℝ → ℝ) (T C : ℝ) : ∃ C' d, 0 < d ∧ ∀ dt, 0 < dt → dt ≤ d →
    ∀ r : Result ℝ, CloseTo g0 G M T (C * dt) r →
      |number r - trapz (g0.map (M · T)) (g0.map (G · T))| ≤ C' * dt := by
  obtain ⟨K1, h1, b1⟩ := list_bound g0 (G · T)
  obtain ⟨K2, h2, b2⟩ := list_bound g0 (M · T)
  refine ⟨g0.length * (4 * max K1 K2 + 2) * |C|, 1 / (|C| + 1), by positivity, fun dt hd hd' r hr => ?_⟩
  have he : |C| * dt ≤ 1 := by
    rw [le_div_iff₀ (by positivity)] at hd'
    nlinarith [abs_nonneg C]
  have hle : C * dt ≤ |C| * dt := mul_le_mul_of_nonneg_right (le_abs_self C) hd.le
  have k1 : Near (max K1 K2) (|C| * dt) r.gamma (g0.map (G · T)) :=
    near_of_getD hr.1 (fun j hj => (hr.2.2 j hj).1.trans hle) fun x hx => (b1 x hx).trans (le_max_left _ _)
  have k2 : Near (max K1 K2) (|C| * dt) r.density (g0.map (M · T)) :=
    near_of_getD hr.2.1 (fun j hj => (hr.2.2 j hj).2.trans hle) fun x hx => (b2 x hx).trans (le_max_right _ _)
  have := trapz_near (by positivity) he (h1.trans (le_max_left _ _)) k1 k2
  rw [hr.1] at this
  unfold number
  linarith

/-- the energy per volume in the arrays, in units of the rest energy of a particle: `np.trapz(gamma * density, gamma)` -/
noncomputable def content (r : Result ℝ) : ℝ := trapz (List.zipWith (· * ·) r.density r.gamma) r.gamma

theorem near_mul {K e : ℝ} (he : 0 ≤ e) (he1 : e ≤ 1) (hK : 0 ≤ K) :
    ∀ {xs xs' ys ys' : List ℝ}, Near K e xs xs' → Near K e ys ys' →
      Near (K * K) ((2 * K + 1) * e) (List.zipWith (· * ·) ys xs) (List.zipWith (· * ·) ys' xs') := by
  intro xs
  induction xs with
  | nil => intro xs' ys ys' hx hy; cases hx; cases hy <;> exact List.Forall₂.nil
  | cons x xs ih =>
    intro xs' ys ys' hx hy
    cases hx with
    | cons h0 hx =>
      cases hy with
      | nil => exact List.Forall₂.nil
      | cons k0 hy =>
        rename_i x' xs' y y' ys ys'
        refine List.Forall₂.cons ⟨?_, ?_⟩ (ih hx hy)
        · have : y * x - y' * x' = (y - y') * x' + y' * (x - x') + (y - y') * (x - x') := by ring
          rw [this]
          refine (abs_add_le _ _).trans ((add_le_add (abs_add_le _ _) le_rfl).trans ?_)
          rw [abs_mul, abs_mul, abs_mul]
          have b1 := mul_le_mul k0.1 h0.2 (abs_nonneg _) he
          have b2 := mul_le_mul k0.2 h0.1 (abs_nonneg _) hK
          have b3 := mul_le_mul k0.1 (h0.1.trans he1) (abs_nonneg _) he
          linarith
        · rw [abs_mul]
          exact mul_le_mul k0.2 h0.2 (abs_nonneg _) hK

theorem near_mono {K K' e e' : ℝ} (hK : K ≤ K') (he : e ≤ e') {xs ys : List ℝ} (h : Near K e xs ys) : Near K' e' xs ys :=
  List.Forall₂.imp (fun _ _ h => ⟨h.1.trans he, h.2.trans hK⟩) h

/-- a run close to the solutions has the energy they have, up to the step -/
theorem content_close (g0 : List ℝ) (G M : ℝ → ℝ → ℝ) (T C : ℝ) : ∃ C' d, 0 < d ∧ ∀ dt, 0 < dt → dt ≤ d →
    ∀ r : Result ℝ, CloseTo g0 G M T (C * dt) r →
      |content r - trapz (g0.map fun x => M x T * G x T) (g0.map (G · T))| ≤ C' * dt := by
  obtain ⟨K1, h1, b1⟩ := list_bound g0 (G · T)
  obtain ⟨K2, h2, b2⟩ := list_bound g0 (M · T)
  set K := max K1 K2 with hK
  have hK0 : 0 ≤ K := h1.trans (le_max_left _ _)
  refine ⟨g0.length * (4 * (K + K * K) + 2) * ((2 * K + 1) * |C|), 1 / ((2 * K + 1) * (|C| + 1)), by positivity,
    fun dt hd hd' r hr => ?_⟩
  have he : (2 * K + 1) * (|C| * dt) ≤ 1 := by
    rw [le_div_iff₀ (by positivity)] at hd'
    nlinarith [abs_nonneg C]
  have hC : 0 ≤ |C| * dt := by positivity
  have he' : |C| * dt ≤ (2 * K + 1) * (|C| * dt) := by nlinarith
  have hle : C * dt ≤ |C| * dt := mul_le_mul_of_nonneg_right (le_abs_self C) hd.le
  have k1 : Near K (|C| * dt) r.gamma (g0.map (G · T)) :=
    near_of_getD hr.1 (fun j hj => (hr.2.2 j hj).1.trans hle) fun x hx => (b1 x hx).trans (le_max_left _ _)
  have k2 : Near K (|C| * dt) r.density (g0.map (M · T)) :=
    near_of_getD hr.2.1 (fun j hj => (hr.2.2 j hj).2.trans hle) fun x hx => (b2 x hx).trans (le_max_right _ _)
  have k3 := near_mul hC (he'.trans he) hK0 k1 k2
  have := trapz_near (K := K + K * K) (by positivity) he (by positivity)
    (near_mono (by nlinarith) he' k1) (near_mono (by nlinarith) le_rfl k3)
  rw [hr.1] at this
  unfold content
  rw [List.zipWith_map, List.zipWith_self] at this
  linarith

/-- two neighbouring Lorentz factors -/
theorem pair_bounds {x y q n m s E : ℝ} (hx : 0 < x) (hxy : x < y) (hq : y ≤ q * x) (hn : 0 ≤ n) (hm : 0 ≤ m) (hs : 0 ≤ s)
    (hE : 0 < E) {lo hi : ℝ} (hlo : 1 ≤ lo) (h1 : lo ≤ 1 + s * x) (h2 : 1 + s * y ≤ hi) :
    lo ^ (0.0001 : ℝ) / q * ((y - x) * (n + m) / 2)
      ≤ (y * E / (1 + s * y) - x * E / (1 + s * x))
        * (n * ((1 + s * x) ^ (2.0001 : ℝ) / E) + m * ((1 + s * y) ^ (2.0001 : ℝ) / E)) / 2
    ∧ (y * E / (1 + s * y) - x * E / (1 + s * x))
        * (n * ((1 + s * x) ^ (2.0001 : ℝ) / E) + m * ((1 + s * y) ^ (2.0001 : ℝ) / E)) / 2
      ≤ q * hi ^ (0.0001 : ℝ) * ((y - x) * (n + m) / 2) := by
  have hy : 0 < y := hx.trans hxy
  have ha : 0 < 1 + s * x := by positivity
  have hb : 0 < 1 + s * y := by positivity
  have hab : 1 + s * x ≤ 1 + s * y := by nlinarith
  have hq1 : 1 ≤ q := by
    by_contra hc
    nlinarith [not_le.1 hc]
  have hba : 1 + s * y ≤ q * (1 + s * x) := by nlinarith
  have pw : ∀ a : ℝ, 0 < a → a ^ (2.0001 : ℝ) = a ^ 2 * a ^ (0.0001 : ℝ) := by
    intro a ha
    rw [show (2.0001 : ℝ) = 2 + 0.0001 by norm_num, Real.rpow_add ha, Real.rpow_two]
  have e : (y * E / (1 + s * y) - x * E / (1 + s * x))
        * (n * ((1 + s * x) ^ (2.0001 : ℝ) / E) + m * ((1 + s * y) ^ (2.0001 : ℝ) / E)) / 2
      = (y - x) / 2 * (n * (((1 + s * x) / (1 + s * y)) * (1 + s * x) ^ (0.0001 : ℝ))
        + m * (((1 + s * y) / (1 + s * x)) * (1 + s * y) ^ (0.0001 : ℝ))) := by
    rw [pw _ ha, pw _ hb]
    generalize (1 + s * x) ^ (0.0001 : ℝ) = u
    generalize (1 + s * y) ^ (0.0001 : ℝ) = v
    field_simp
    ring
  rw [e]
  have l0 : (0 : ℝ) < lo ^ (0.0001 : ℝ) := by positivity
  have u1 : lo ^ (0.0001 : ℝ) ≤ (1 + s * x) ^ (0.0001 : ℝ) := Real.rpow_le_rpow (by positivity) h1 (by norm_num)
  have u2 : (1 + s * x) ^ (0.0001 : ℝ) ≤ (1 + s * y) ^ (0.0001 : ℝ) := Real.rpow_le_rpow ha.le hab (by norm_num)
  have u3 : (1 + s * y) ^ (0.0001 : ℝ) ≤ hi ^ (0.0001 : ℝ) := Real.rpow_le_rpow hb.le h2 (by norm_num)
  have r1 : 1 / q ≤ (1 + s * x) / (1 + s * y) := by
    rw [div_le_div_iff₀ (by positivity) hb]
    linarith
  have r2 : (1 + s * x) / (1 + s * y) ≤ 1 := (div_le_one hb).2 hab
  have r3 : 1 ≤ (1 + s * y) / (1 + s * x) := (one_le_div ha).2 hab
  have r4 : (1 + s * y) / (1 + s * x) ≤ q := (div_le_iff₀ ha).2 hba
  have r0 : 1 / q ≤ 1 := (div_le_one (by positivity)).2 hq1
  have r0' : 0 < 1 / q := by positivity
  revert u1 u2 u3 r1 r2 r3 r4
  generalize (1 + s * x) ^ (0.0001 : ℝ) = u
  generalize (1 + s * y) ^ (0.0001 : ℝ) = v
  generalize (1 + s * x) / (1 + s * y) = c
  generalize (1 + s * y) / (1 + s * x) = d
  intro u1 u2 u3 r1 r2 r3 r4
  have hd : 0 < (y - x) / 2 := by linarith
  have hc0 : 0 < c := r0'.trans_le r1
  have hv0 : 0 < v := l0.trans_le (u1.trans u2)
  have a1 : 1 / q * lo ^ (0.0001 : ℝ) ≤ c * u := mul_le_mul r1 u1 l0.le hc0.le
  have a2 : 1 / q * lo ^ (0.0001 : ℝ) ≤ d * v := mul_le_mul (r0.trans r3) (u1.trans u2) l0.le (by linarith)
  have a3 : c * u ≤ q * hi ^ (0.0001 : ℝ) := mul_le_mul (r2.trans hq1) (u2.trans u3) (by linarith) (by linarith)
  have a4 : d * v ≤ q * hi ^ (0.0001 : ℝ) := mul_le_mul r4 u3 hv0.le (by linarith)
  constructor
  · have := mul_le_mul_of_nonneg_left (add_le_add (mul_le_mul_of_nonneg_left a1 hn) (mul_le_mul_of_nonneg_left a2 hm)) hd.le
    refine le_trans (le_of_eq ?_) this
    ring
  · have := mul_le_mul_of_nonneg_left (add_le_add (mul_le_mul_of_nonneg_left a3 hn) (mul_le_mul_of_nonneg_left a4 hm)) hd.le
    refine this.trans (le_of_eq ?_)
    ring

/-- the grid of Lorentz factors increases, each by at most a factor `q` over the one before -/
def Spaced (q : ℝ) (g0 : List ℝ) : Prop := g0.IsChain fun x y => x < y ∧ y ≤ q * x

theorem solution_bounds {q s E : ℝ} {f : ℝ → ℝ} {lo hi : ℝ} (hs : 0 ≤ s) (hE : 0 < E) (hlo : 1 ≤ lo) :
    ∀ {g0 : List ℝ}, Spaced q g0 → (∀ x ∈ g0, 0 < x ∧ 0 ≤ f x ∧ lo ≤ 1 + s * x ∧ 1 + s * x ≤ hi) →
      lo ^ (0.0001 : ℝ) / q * trapz (g0.map f) g0
        ≤ trapz (g0.map fun x => f x * ((1 + s * x) ^ (2.0001 : ℝ) / E)) (g0.map fun x => x * E / (1 + s * x))
      ∧ trapz (g0.map fun x => f x * ((1 + s * x) ^ (2.0001 : ℝ) / E)) (g0.map fun x => x * E / (1 + s * x))
        ≤ q * hi ^ (0.0001 : ℝ) * trapz (g0.map f) g0 := by
  intro g0
  induction g0 with
  | nil => intro _ _; simp [trapz]
  | cons x l ih =>
    intro hc h
    cases l with
    | nil => simp [trapz]
    | cons y l =>
      rw [Spaced, List.isChain_cons_cons] at hc
      obtain ⟨ih1, ih2⟩ := ih hc.2 fun z hz => h z (List.mem_cons_of_mem _ hz)
      obtain ⟨a1, a2, a3, a4⟩ := h x (by simp)
      obtain ⟨b1, b2, b3, b4⟩ := h y (by simp)
      obtain ⟨p1, p2⟩ := pair_bounds a1 hc.1.1 hc.1.2 a2 b2 hs hE hlo a3 b4
      simp only [List.map_cons, trapz] at ih1 ih2 ⊢
      exact ⟨(mul_add _ _ _).trans_le (add_le_add p1 ih1), (add_le_add p2 ih2).trans_eq (mul_add _ _ _).symm⟩

/-- what the particles that start with the densities `f` bring to the time `T`: their Lorentz factors then, weighted with
the initial densities -/
noncomputable def carried (f G : ℝ → ℝ) (g0 : List ℝ) : ℝ := trapz (g0.map fun x => f x * G x) g0

/-- what is claimed for an array that ends with the Lorentz factors `G` after factors `lo` to `hi` of cooling: number and
energy of the particles, but for the spacing `q` of the grid and the power 0.0001, are those of the particles at the start -/
structure Kept (g0 : List ℝ) (f G : ℝ → ℝ) (q lo hi e : ℝ) (r : Result ℝ) : Prop where
  number_ge : lo ^ (0.0001 : ℝ) / q * trapz (g0.map f) g0 - e ≤ number r
  number_le : number r ≤ q * hi ^ (0.0001 : ℝ) * trapz (g0.map f) g0 + e
  content_ge : lo ^ (0.0001 : ℝ) / q * carried f G g0 - e ≤ content r
  content_le : content r ≤ q * hi ^ (0.0001 : ℝ) * carried f G g0 + e

theorem kept_of_close {g0 : List ℝ} {f : ℝ → ℝ} {q s E lo hi : ℝ} (hs : 0 ≤ s) (hE : 0 < E) (hlo : 1 ≤ lo)
    (hq : Spaced q g0) (h : ∀ x ∈ g0, 0 < x ∧ 0 ≤ f x ∧ lo ≤ 1 + s * x ∧ 1 + s * x ≤ hi) {G M : ℝ → ℝ → ℝ} {T : ℝ}
    (hG : ∀ x, G x T = x * E / (1 + s * x)) (hM : ∀ x, M x T = f x * ((1 + s * x) ^ (2.0001 : ℝ) / E)) (C : ℝ) :
    ∃ C' d, 0 < d ∧ ∀ dt, 0 < dt → dt ≤ d → ∀ r : Result ℝ, CloseTo g0 G M T (C * dt) r →
      Kept g0 f (fun x => x * E / (1 + s * x)) q lo hi (C' * dt) r := by
  obtain ⟨C1, d1, p1, h1⟩ := number_close g0 G M T C
  obtain ⟨C2, d2, p2, h2⟩ := content_close g0 G M T C
  refine ⟨max C1 C2, min d1 d2, lt_min p1 p2, fun dt hd hd' r hr => ?_⟩
  have a1 := h1 dt hd (hd'.trans (min_le_left _ _)) r hr
  have a2 := h2 dt hd (hd'.trans (min_le_right _ _)) r hr
  simp only [hG, hM] at a1 a2
  obtain ⟨b1, b2⟩ := solution_bounds hs hE hlo hq h
  obtain ⟨b3, b4⟩ := solution_bounds (f := fun x => f x * (x * E / (1 + s * x))) hs hE hlo hq fun x hx => by
    obtain ⟨c1, c2, c3, c4⟩ := h x hx
    exact ⟨c1, by positivity, c3, c4⟩
  have e1 : (g0.map fun x => f x * ((1 + s * x) ^ (2.0001 : ℝ) / E) * (x * E / (1 + s * x)))
      = g0.map fun x => f x * (x * E / (1 + s * x)) * ((1 + s * x) ^ (2.0001 : ℝ) / E) :=
    List.map_congr_left fun x _ => by ring
  rw [e1] at a2
  rw [abs_le] at a1 a2
  have m1 : C1 * dt ≤ max C1 C2 * dt := mul_le_mul_of_nonneg_right (le_max_left _ _) hd.le
  have m2 : C2 * dt ≤ max C1 C2 * dt := mul_le_mul_of_nonneg_right (le_max_right _ _) hd.le
  unfold carried at *
  exact ⟨by linarith [a1.1], by linarith [a1.2], by unfold carried; linarith [a2.1], by unfold carried; linarith [a2.2]⟩

variable {k : Consts}

/-- **C109** (cooling).  Synchrotron losses in ever smaller steps: the arrays hold, but for the spacing of the grid, the
particles of the start, and the power 0.0001 of the factor by which they cooled more.  Their energy is that of particles
on the analytic cooling curve. -/
theorem C109_synchrotron (hk : k.Pos) {name : String} {B T q x0 x1 : ℝ} {g0 : List ℝ} {dist : Dist ℝ}
    (hT : 0 ≤ T) (h0 : 0 < x0) (hg : ∀ x ∈ g0, x0 ≤ x ∧ x ≤ x1) (hq : Spaced q g0) (hpos : ∀ x ∈ g0, 0 ≤ dist.eval x)
    (htwo : 2 ≤ (g0.filter fun x => decide (0 < dist.eval x)).length) :
    ∃ C dt0, 0 < dt0 ∧ ∀ dt, 0 < dt → dt ≤ dt0 → ∀ cfg : Cfg ℝ, SynchRun k cfg B dt dist →
      cfg.totalTime = T → cfg.initialGamma = g0 → cfg.enFns = [(name, synchrotronLoss k B)] →
      (∃ r d, Returns cfg dist r d) ∧ ∀ r d, Returns cfg dist r d →
        Kept g0 dist.eval (fun x => x / (1 + coolingRate k B * T * x)) q (1 + coolingRate k B * T * x0)
          (1 + coolingRate k B * T * x1) (C * dt) r := by
  have hb := coolingRate_nonneg hk B
  have hs : 0 ≤ coolingRate k B * T := by positivity
  obtain ⟨C, dt0, hd, h⟩ := C80_synchrotron hk (name := name) (B := B) hT (fun x hx => h0.trans_le (hg x hx).1) hpos htwo
  obtain ⟨C', d', hd', h'⟩ := kept_of_close (E := 1) (lo := 1 + coolingRate k B * T * x0)
    (hi := 1 + coolingRate k B * T * x1) hs one_pos (by nlinarith) hq
    (fun x hx => ⟨h0.trans_le (hg x hx).1, hpos x hx, by nlinarith [(hg x hx).1], by nlinarith [(hg x hx).2]⟩)
    (G := fun x t => x / (1 + coolingRate k B * x * t))
    (M := fun x t => dist.eval x * (1 + coolingRate k B * x * t) ^ (2.0001 : ℝ)) (T := T)
    (fun x => by rw [mul_one, mul_right_comm]) (fun x => by rw [div_one, mul_right_comm (coolingRate k B)]) C
  refine ⟨C', min dt0 d', lt_min hd hd', fun dt hp hdt cfg hc hT' hg' hen => ?_⟩
  obtain ⟨r1, r2⟩ := h dt hp (hdt.trans (min_le_left _ _)) cfg hc hT' hg' hen
  refine ⟨r1, fun r d hr => ?_⟩
  have := h' dt hp (hdt.trans (min_le_right _ _)) r (r2 r d hr)
  simpa only [mul_one] using this

/-- **C109** (acceleration and cooling). -/
theorem C109_fermi_synchrotron (hk : k.Pos) {acc syn : String} {t_acc B T q x0 x1 : ℝ} {g0 : List ℝ} {dist : Dist ℝ}
    (ht : 0 < t_acc) (hT : 0 ≤ T) (h0 : 0 < x0) (hg : ∀ x ∈ g0, x0 ≤ x ∧ x ≤ x1) (hq : Spaced q g0)
    (hpos : ∀ x ∈ g0, 0 ≤ dist.eval x) (htwo : 2 ≤ (g0.filter fun x => decide (0 < dist.eval x)).length) :
    ∃ C dt0, 0 < dt0 ∧ ∀ dt, 0 < dt → dt ≤ dt0 → ∀ cfg : Cfg ℝ, AcceleratedRun k cfg acc syn t_acc B dt →
      cfg.totalTime = T → cfg.initialGamma = g0 →
      (∃ r d, Returns cfg dist r d) ∧ ∀ r d, Returns cfg dist r d →
        Kept g0 dist.eval
          (fun x => x * Real.exp (T / t_acc) / (1 + coolingRate k B * (t_acc * (Real.exp (T / t_acc) - 1)) * x)) q
          (1 + coolingRate k B * (t_acc * (Real.exp (T / t_acc) - 1)) * x0)
          (1 + coolingRate k B * (t_acc * (Real.exp (T / t_acc) - 1)) * x1) (C * dt) r := by
  have hb := coolingRate_nonneg hk B
  have hw : 0 ≤ t_acc * (Real.exp (T / t_acc) - 1) :=
    mul_nonneg ht.le (by linarith [Real.one_le_exp (div_nonneg hT ht.le)])
  have hs : 0 ≤ coolingRate k B * (t_acc * (Real.exp (T / t_acc) - 1)) := mul_nonneg hb hw
  obtain ⟨C, dt0, hd, h⟩ := C80_fermi_synchrotron hk (acc := acc) (syn := syn) (B := B) ht hT
    (fun x hx => h0.trans_le (hg x hx).1) hpos htwo
  obtain ⟨C', d', hd', h'⟩ := kept_of_close (E := Real.exp (T / t_acc))
    (s := coolingRate k B * (t_acc * (Real.exp (T / t_acc) - 1)))
    (lo := 1 + coolingRate k B * (t_acc * (Real.exp (T / t_acc) - 1)) * x0)
    (hi := 1 + coolingRate k B * (t_acc * (Real.exp (T / t_acc) - 1)) * x1) hs (Real.exp_pos _) (by nlinarith) hq
    (fun x hx => ⟨h0.trans_le (hg x hx).1, hpos x hx, by nlinarith [(hg x hx).1], by nlinarith [(hg x hx).2]⟩)
    (G := fun x t => x * Real.exp (t / t_acc) / (1 + coolingRate k B * x * (t_acc * (Real.exp (t / t_acc) - 1))))
    (M := fun x t => dist.eval x * ((1 + coolingRate k B * x * (t_acc * (Real.exp (t / t_acc) - 1))) ^ (2.0001 : ℝ)
          / Real.exp (t / t_acc))) (T := T)
    (fun x => by rw [mul_right_comm (coolingRate k B)]) (fun x => by rw [mul_right_comm (coolingRate k B)]) C
  refine ⟨C', min dt0 d', lt_min hd hd', fun dt hp hdt cfg hc hT' hg' => ?_⟩
  obtain ⟨r1, r2⟩ := h dt hp (hdt.trans (min_le_left _ _)) cfg hc hT' hg'
  exact ⟨r1, fun r d hr => h' dt hp (hdt.trans (min_le_right _ _)) r (r2 r d hr)⟩

theorem trapz_stretch {Q : ℝ} (hQ : Q ≠ 0) (f : ℝ → ℝ) (l : List ℝ) :
    trapz (l.map fun x => f x / Q) (l.map (· * Q)) = trapz (l.map f) l := by
  induction l with
  | nil => simp [trapz]
  | cons x l ih =>
    cases l with
    | nil => simp [trapz]
    | cons y l =>
      simp only [List.map_cons, trapz] at ih ⊢
      rw [ih]
      congr 1
      field_simp

/-- **C109** (acceleration).  Fermi acceleration alone keeps the number of particles exactly, for any fixed step, and
multiplies their energy by the same factor as the Lorentz factors. -/
theorem C109_fermi {cfg : Cfg ℝ} {t_acc dt : ℝ} {dist : Dist ℝ} (h : FermiRun k cfg t_acc dt dist) :
    (∃ r d, Returns cfg dist r d) ∧ ∀ r d, Returns cfg dist r d →
      number r = trapz (cfg.initialGamma.map dist.eval) cfg.initialGamma
      ∧ ∃ Q, 1 ≤ Q ∧ Q ≤ Real.exp (cfg.totalTime / t_acc)
        ∧ content r = Q * trapz (cfg.initialGamma.map fun x => dist.eval x * x) cfg.initialGamma := by
  obtain ⟨h1, h2⟩ := C71_fermi h
  refine ⟨h1, fun r d hr => ?_⟩
  obtain ⟨Q, q1, q2, e1, e2, -⟩ := h2 r d hr
  have hQ : Q ≠ 0 := by positivity
  unfold number content
  rw [e1, e2, trapz_stretch hQ]
  refine ⟨rfl, Q, q1, q2, ?_⟩
  rw [List.zipWith_map, List.zipWith_self]
  have e3 : (cfg.initialGamma.map fun x => dist.eval x / Q * (x * Q))
      = cfg.initialGamma.map fun x => (fun x => Q * (dist.eval x * x)) x / Q :=
    List.map_congr_left fun x _ => by field_simp
  rw [e3, trapz_stretch hQ, ← C33_trapz_scale, List.map_map]
  rfl

/-- **C109** (excess).  The power 0.0001 is no artefact of the proof: given enough time, cooling multiplies the particles
by any factor, however small the steps. -/
theorem C109_created (hk : k.Pos) {name : String} {B q x0 x1 : ℝ} {g0 : List ℝ} {dist : Dist ℝ} (hB : B ≠ 0)
    (h0 : 0 < x0) (hg : ∀ x ∈ g0, x0 ≤ x ∧ x ≤ x1) (hq : Spaced q g0) (hpos : ∀ x ∈ g0, 0 ≤ dist.eval x)
    (htwo : 2 ≤ (g0.filter fun x => decide (0 < dist.eval x)).length) (hN : 0 < trapz (g0.map dist.eval) g0) (F : ℝ) :
    ∃ T, 0 ≤ T ∧ ∃ dt0, 0 < dt0 ∧ ∀ dt, 0 < dt → dt ≤ dt0 → ∀ cfg : Cfg ℝ, SynchRun k cfg B dt dist →
      cfg.totalTime = T → cfg.initialGamma = g0 → cfg.enFns = [(name, synchrotronLoss k B)] →
      (∃ r d, Returns cfg dist r d) ∧ ∀ r d, Returns cfg dist r d →
        F * trapz (g0.map dist.eval) g0 ≤ number r := by
  have hb : 0 < coolingRate k B := by
    have := hk.sigma_T; have := hk.c; have := mec2_pos hk; have := Real.pi_pos
    unfold coolingRate
    positivity
  have hq0 : 0 < q := by
    match g0, hq, hN with
    | [], _, hN => simp [trapz] at hN
    | [x], _, hN => simp [trapz] at hN
    | x :: y :: l, hq, _ =>
      rw [Spaced, List.isChain_cons_cons] at hq
      have hx := h0.trans_le (hg x (by simp)).1
      have hy := hx.trans hq.1.1
      by_contra hc
      nlinarith [hq.1.2, not_lt.1 hc]
  set F' := q * (|F| + 1) with hF
  have hF0 : 0 < F' := by positivity
  obtain ⟨Z, hZ0, hZ⟩ : ∃ Z : ℝ, 0 < Z ∧ F' = Z ^ (0.0001 : ℝ) :=
    ⟨F' ^ ((0.0001 : ℝ)⁻¹), Real.rpow_pos_of_pos hF0 _, (Real.rpow_inv_rpow hF0.le (by norm_num)).symm⟩
  set T := Z / (coolingRate k B * x0) with hT
  have hT0 : 0 ≤ T := by positivity
  obtain ⟨C, dt0, hd, h⟩ := C109_synchrotron hk (name := name) (B := B) hT0 h0 hg hq hpos htwo
  refine ⟨T, hT0, min dt0 (trapz (g0.map dist.eval) g0 / (|C| + 1)), by positivity, fun dt hp hdt cfg hc hT' hg' hen => ?_⟩
  obtain ⟨r1, r2⟩ := h dt hp (hdt.trans (min_le_left _ _)) cfg hc hT' hg' hen
  refine ⟨r1, fun r d hr => ?_⟩
  have key := (r2 r d hr).number_ge
  have e1 : F' ≤ (1 + coolingRate k B * T * x0) ^ (0.0001 : ℝ) := by
    have e2 : coolingRate k B * T * x0 = Z := by
      rw [hT]
      field_simp
    rw [e2, hZ]
    exact Real.rpow_le_rpow hZ0.le (by linarith) (by norm_num)
  have e2 : |F| + 1 ≤ (1 + coolingRate k B * T * x0) ^ (0.0001 : ℝ) / q := by
    rw [le_div_iff₀ hq0]
    linarith
  have e3 : C * dt ≤ trapz (g0.map dist.eval) g0 := by
    have := hdt.trans (min_le_right _ _)
    rw [le_div_iff₀ (by positivity)] at this
    nlinarith [le_abs_self C, abs_nonneg C]
  have e4 := mul_le_mul_of_nonneg_right e2 hN.le
  have e5 := mul_le_mul_of_nonneg_right (le_abs_self F) hN.le
  linarith

/-! ### cases meeting the hypotheses -/

theorem phys_spaced : Spaced 10 [10, 100] := by simp [Spaced]; norm_num

example (hk : k.Pos) : ∃ C dt0, 0 < dt0 ∧ ∀ dt, 0 < dt → dt ≤ dt0 → coolingRate k 1 * 100 * dt ≤ 1 / 10 → ∃ r d,
    Returns (physCfg k (synchrotronLoss k 1) dt 3) physDist r d ∧
    number r ≤ 10 * (1 + coolingRate k 1 * 3 * 100) ^ (0.0001 : ℝ) * ((100 - 10) * (1 / 10 + 1 / 100) / 2) + C * dt := by
  obtain ⟨C, dt0, hd, h⟩ := C109_synchrotron hk (name := "f") (B := 1) (T := 3) (x0 := 10) (x1 := 100)
    (g0 := [10, 100]) (dist := physDist) (by norm_num) (by norm_num) (by simp; norm_num) phys_spaced (by simp [physDist])
    (by simp [physDist])
  refine ⟨C, dt0, hd, fun dt hp hdt hres => ?_⟩
  have hb := coolingRate_nonneg hk 1
  have hbd : 0 ≤ coolingRate k 1 * dt := by positivity
  obtain ⟨⟨r, d, hr⟩, h2⟩ := h dt hp hdt (physCfg k (synchrotronLoss k 1) dt 3)
    ⟨hk, physCfg_wf hk _ _ _, rfl, rfl, ⟨"f", rfl⟩, rfl, rfl, rfl, rfl, rfl, rfl, rfl, physCfg_start _ _ _ _, hp,
      by norm_num [physCfg], fun x hx => by
        have hx' : x = 10 ∨ x = 100 := by simpa [physCfg] using hx
        rcases hx' with rfl | rfl <;> nlinarith⟩ rfl rfl rfl
  refine ⟨r, d, hr, ?_⟩
  have := (h2 r d hr).number_le
  simpa only [List.map_cons, List.map_nil, trapz, add_zero, physDist] using this

end Verif.TE
