import Verif.Model.Blob
import Verif.Props.Spectra

/- Facts shared by the radiative processes: integrators, scaled distributions, Lorentz-factor grids. -/

namespace Verif

open MathUtils Spectra

/-! ### integrators -/

/-- an integrator that gives a non-negative value for non-negative samples on an increasing positive grid -/
def NonnegIntegrator (I : List ℝ → List ℝ → ℝ) : Prop :=
  ∀ ys xs : List ℝ, xs.IsChain (· ≤ ·) → (∀ x ∈ xs, 0 < x) → (∀ y ∈ ys, 0 ≤ y) → 0 ≤ I ys xs

/-- an integrator that is homogeneous in the samples -/
def HomogeneousIntegrator (I : List ℝ → List ℝ → ℝ) : Prop :=
  ∀ (c : ℝ) (ys xs : List ℝ), I (ys.map (c * ·)) xs = c * I ys xs

theorem nonneg_trapz : NonnegIntegrator trapz := fun ys xs hx _ hy => C33_trapz_nonneg ys xs hx hy

theorem nonneg_loglog : NonnegIntegrator trapzLoglog := fun ys xs hx hp hy => C33_loglog_nonneg ys xs hx hp hy

/-- an integrator that gives a non-positive value for non-positive samples on an increasing positive grid -/
def NonposIntegrator (I : List ℝ → List ℝ → ℝ) : Prop :=
  ∀ ys xs : List ℝ, xs.IsChain (· ≤ ·) → (∀ x ∈ xs, 0 < x) → (∀ y ∈ ys, y ≤ 0) → I ys xs ≤ 0

theorem nonpos_trapz : NonposIntegrator trapz := by
  intro ys xs hx _ hy
  have h := C33_trapz_nonneg (ys.map ((-1 : ℝ) * ·)) xs hx (by
    intro y h
    obtain ⟨v, hv, rfl⟩ := List.mem_map.1 h
    have := hy v hv
    linarith)
  rw [C33_trapz_scale] at h
  linarith

/-- on samples that are not positive the clipped logarithms coincide, and `trapz_loglog` takes the left value on each
interval -/
theorem loglogVal_nonpos {xl yl xu yu : ℝ} (hl : 0 < xl) (hlu : xl ≤ xu) (h1 : yl ≤ 0) (h2 : yu ≤ 0) (h0 : yu ≠ 0) :
    loglogVal xl yl xu yu = yl * (xu - xl) := by
  have hc : ∀ y : ℝ, y ≤ 0 → MathUtils.log y = Real.log (min ftiny fmax) := by
    intro y hy
    unfold MathUtils.log clip
    rw [max_eq_right (hy.trans ftiny_pos.le)]
  have hu : 0 < xu := lt_of_lt_of_le hl hlu
  unfold loglogVal
  dsimp only
  rw [hc yl h1, hc yu h2]
  simp only [sub_self, zero_div, zero_add]
  rw [if_pos (by norm_num : |(1 : ℝ)| > 1 / 10 ^ 10)]
  by_cases h : yl = 0 ∨ yu = 0 ∨ xl = xu
  · rw [if_pos h]
    rcases h with h | h | h
    · simp [h]
    · exact absurd h h0
    · simp [h]
  · rw [if_neg h]
    simp

theorem nonpos_loglog : NonposIntegrator trapzLoglog := by
  intro ys xs
  induction xs generalizing ys with
  | nil => intro _ _ _; cases ys <;> simp [trapzLoglog]
  | cons x xs ih =>
    intro hx hp hy
    rcases ys with _ | ⟨y, _ | ⟨y', ys⟩⟩
    · simp [trapzLoglog]
    · simp [trapzLoglog]
    · rcases xs with _ | ⟨x', xs⟩
      · simp [trapzLoglog]
      · simp only [trapzLoglog]
        rw [List.isChain_cons_cons] at hx
        have h1 := ih (y' :: ys) hx.2 (fun a ha => hp a (List.mem_cons_of_mem _ ha))
          (fun a ha => hy a (List.mem_cons_of_mem _ ha))
        have hy1 : y ≤ 0 := hy y (by simp)
        have hy2 : y' ≤ 0 := hy y' (by simp)
        have h2 : loglogVal x y x' y' ≤ 0 := by
          by_cases h0 : y' = 0
          · simp [loglogVal, h0]
          · rw [loglogVal_nonpos (hp x (by simp)) hx.1 hy1 hy2 h0]
            have := hx.1
            nlinarith
        linarith

theorem homogeneous_trapz : HomogeneousIntegrator trapz := fun c ys xs => C33_trapz_scale c ys xs

theorem over_trapz_nonneg {grid : List ℝ} {f : ℝ → ℝ} (hg : grid.IsChain (· ≤ ·)) (hf : ∀ x ∈ grid, 0 ≤ f x) :
    0 ≤ over trapz grid f := by
  refine C33_trapz_nonneg _ _ hg ?_
  intro y hy
  obtain ⟨x, hx, rfl⟩ := List.mem_map.1 hy
  exact hf x hx

theorem over_nonneg {I : List ℝ → List ℝ → ℝ} (hI : NonnegIntegrator I) {grid : List ℝ} {f : ℝ → ℝ}
    (hg : grid.IsChain (· ≤ ·)) (hp : ∀ x ∈ grid, 0 < x) (hf : ∀ x ∈ grid, 0 ≤ f x) : 0 ≤ over I grid f := by
  refine hI _ _ hg hp ?_
  intro y hy
  obtain ⟨x, hx, rfl⟩ := List.mem_map.1 hy
  exact hf x hx

theorem over_scale {I : List ℝ → List ℝ → ℝ} (hI : HomogeneousIntegrator I) (grid : List ℝ) (f : ℝ → ℝ) (c : ℝ) :
    over I grid (fun x => c * f x) = c * over I grid f := by
  unfold over
  rw [← hI, List.map_map]
  rfl

theorem over_congr {I : List ℝ → List ℝ → ℝ} {grid : List ℝ} {f g : ℝ → ℝ} (h : ∀ x ∈ grid, f x = g x) :
    over I grid f = over I grid g := by
  unfold over
  rw [List.map_congr_left h]

theorem over_zero {grid : List ℝ} {f : ℝ → ℝ} (h : ∀ x ∈ grid, f x = 0) : over trapz grid f = 0 := by
  rw [over_congr (g := fun x => 0 * f x) (by intro x hx; rw [h x hx, mul_zero]), over_scale homogeneous_trapz, zero_mul]

/-- the trapezoidal sum of non-negative samples vanishes only when all samples do -/
theorem trapz_eq_zero {ys xs : List ℝ} (hc : xs.IsChain (· < ·)) (hl : 2 ≤ xs.length) (he : ys.length = xs.length)
    (hf : ∀ y ∈ ys, 0 ≤ y) (h : trapz ys xs = 0) : ∀ y ∈ ys, y = 0 := by
  induction xs generalizing ys with
  | nil => simp at hl
  | cons a xs ih =>
    rcases xs with _ | ⟨b, rest⟩
    · simp at hl
    · rcases ys with _ | ⟨ya, _ | ⟨yb, ys⟩⟩
      · simp at he
      · simp at he
      · rw [List.isChain_cons_cons] at hc
        have ha := hf ya (by simp)
        have hb := hf yb (by simp)
        have h0 : 0 ≤ trapz (yb :: ys) (b :: rest) :=
          C33_trapz_nonneg _ _ (hc.2.imp fun _ _ h => h.le) fun x hx => hf x (List.mem_cons_of_mem _ hx)
        have e : trapz (ya :: yb :: ys) (a :: b :: rest) = (b - a) * (ya + yb) / 2 + trapz (yb :: ys) (b :: rest) :=
          rfl
        have hd : 0 < b - a := by linarith [hc.1]
        have h1 : 0 ≤ (b - a) * (ya + yb) / 2 := by positivity
        rw [e] at h
        have h3 : ya + yb = 0 := by
          rcases mul_eq_zero.1 (by linarith : (b - a) * (ya + yb) = 0) with h | h
          · linarith
          · exact h
        have fa : ya = 0 := by linarith
        have fb : yb = 0 := by linarith
        intro x hx
        rcases List.mem_cons.1 hx with rfl | hx
        · exact fa
        · rcases rest with _ | ⟨c, rest⟩
          · rcases ys with _ | ⟨_, _⟩
            · rw [List.mem_singleton.1 hx]; exact fb
            · simp at he
          · exact ih hc.2 (by simp) (by simpa using he) (fun x hx => hf x (List.mem_cons_of_mem _ hx)) (by linarith) x hx

theorem over_trapz_eq_zero_iff {grid : List ℝ} {f : ℝ → ℝ} (hc : grid.IsChain (· < ·)) (hl : 2 ≤ grid.length)
    (hf : ∀ x ∈ grid, 0 ≤ f x) : over trapz grid f = 0 ↔ ∀ x ∈ grid, f x = 0 := by
  refine ⟨fun h x hx => ?_, over_zero⟩
  refine trapz_eq_zero hc hl (by simp) ?_ h (f x) (List.mem_map_of_mem hx)
  intro y hy
  obtain ⟨x, hx, rfl⟩ := List.mem_map.1 hy
  exact hf x hx

/-! ### samples of a product -/

theorem zipWith_mul_map (f w : ℝ → ℝ) (g : List ℝ) :
    List.zipWith (· * ·) (g.map f) (g.map w) = g.map fun x => f x * w x := by
  rw [List.zipWith_map, List.zipWith_self]

namespace Spectra.Dist

/-- the distribution with `c` times as many particles at every energy: the normalisation multiplied by `c` -/
def scale (c : ℝ) : Dist → Dist
  | powerLaw k p a b => powerLaw (c * k) p a b
  | broken k p1 p2 gb a b => broken (c * k) p1 p2 gb a b
  | logParabola k p q g0 a b => logParabola (c * k) p q g0 a b
  | ecpl k p gc a b => ecpl (c * k) p gc a b
  | ecbpl k p1 p2 gc gb a b => ecbpl (c * k) p1 p2 gc gb a b
  | interp f df norm a b => interp f df (c * norm) a b
  | empty a b => empty a b

@[simp] theorem scale_gmin (c : ℝ) (d : Dist) : (d.scale c).gmin = d.gmin := by cases d <;> rfl
@[simp] theorem scale_gmax (c : ℝ) (d : Dist) : (d.scale c).gmax = d.gmax := by cases d <;> rfl

/-- the scaled distribution has `c` times the density -/
theorem scale_call (c : ℝ) (d : Dist) (g : ℝ) : (d.scale c).call g = c * d.call g := by
  cases d <;> simp only [scale, call, powerLawAt, brokenAt, logParabolaAt, ecplAt, ecbplAt, interpAt] <;>
    first | (split_ifs <;> ring) | ring

theorem scale_afterCall (c : ℝ) (d : Dist) (gamma : List ℝ) : (d.scale c).afterCall gamma = d.afterCall gamma := by
  cases d <;> rfl

theorem scale_afterSSA (c : ℝ) (d : Dist) (gamma : List ℝ) : (d.scale c).afterSSA gamma = d.afterSSA gamma := by
  cases d <;> rfl

theorem scale_ssaElem (c : ℝ) (d : Dist) (g g' : ℝ) : (d.scale c).ssaElem g g' = c * d.ssaElem g g' := by
  cases d <;> simp only [scale, ssaElem, powerLawSSA, brokenSSA, logParabolaSSA, ecplSSA, ecbplSSA, interpSSA,
    logParabolaAt, ecplAt, ecbplAt, interpAt] <;> first | (split_ifs <;> ring) | ring

theorem scale_positive {c : ℝ} (hc : 0 < c) {d : Dist} (h : d.Positive) : (d.scale c).Positive := by
  cases d <;> simp only [scale, Positive] at h ⊢
  · exact ⟨mul_pos hc h.1, h.2⟩
  · exact ⟨mul_pos hc h.1, h.2⟩
  · exact ⟨mul_pos hc h.1, h.2⟩
  · exact ⟨mul_pos hc h.1, h.2⟩
  · exact ⟨mul_pos hc h.1, h.2⟩
  · exact ⟨mul_pos hc h.1, h.2⟩

end Spectra.Dist

/-! ### grids -/

theorem logspace_ends_n {a b : ℝ} (ha : 0 < a) (hb : 0 < b) {n : ℕ} (hn : 2 ≤ n) :
    ∃ mid, logspace (log10 a) (log10 b) n = a :: (mid ++ [b]) := by
  obtain ⟨m, rfl⟩ : ∃ m, n = m + 2 := ⟨n - 2, by omega⟩
  refine ⟨((List.range m).map fun i : ℕ =>
    (10 : ℝ) ^ (log10 a + ((i + 1 : ℕ) : ℝ) * ((log10 b - log10 a) / (((m + 2 : ℕ) : ℝ) - 1)))), ?_⟩
  unfold logspace linspace
  rw [List.map_map, range_ends m]
  simp only [List.map_cons, List.map_append, List.map_map, List.map_nil, Function.comp_def]
  have hm : ((m + 1 : ℕ) : ℝ) * ((log10 b - log10 a) / (((m + 2 : ℕ) : ℝ) - 1)) = log10 b - log10 a := by
    have : (((m + 2 : ℕ) : ℝ) - 1) = ((m + 1 : ℕ) : ℝ) := by push_cast; ring
    rw [this, mul_div_cancel₀]
    positivity
  rw [hm]
  simp only [Nat.cast_zero, zero_mul, add_zero, add_sub_cancel]
  rw [ten_pow_log10 ha, ten_pow_log10 hb]

theorem logspace_pos {a b : ℝ} {n : ℕ} : ∀ x ∈ logspace a b n, 0 < x := by
  intro x hx
  obtain ⟨e, _, rfl⟩ := List.mem_map.1 hx
  positivity

theorem chain_le_of_pairwise {l : List ℝ} (h : l.Pairwise (· < ·)) : l.IsChain (· ≤ ·) :=
  List.isChain_iff_pairwise.2 (h.imp fun h => h.le)

theorem linspace_chain {a b : ℝ} (h : a < b) {n : ℕ} (hn : 2 ≤ n) : (linspace a b n).IsChain (· ≤ ·) :=
  chain_le_of_pairwise (linspace_pairwise h n hn)

theorem logspace_chain {a b : ℝ} (h : a < b) {n : ℕ} (hn : 2 ≤ n) : (logspace a b n).IsChain (· ≤ ·) :=
  chain_le_of_pairwise (logspace_pairwise h n hn)

theorem linspace_mem {a b : ℝ} (h : a ≤ b) {n : ℕ} (hn : 2 ≤ n) {x : ℝ} (hx : x ∈ linspace a b n) :
    x ∈ Set.Icc a b := by
  obtain ⟨i, hi, rfl⟩ := List.mem_map.1 hx
  have hi' : (i : ℝ) ≤ n - 1 := by
    have : i + 1 ≤ n := List.mem_range.1 hi
    have : ((i + 1 : ℕ) : ℝ) ≤ n := by exact_mod_cast this
    push_cast at this; linarith
  have hn' : (0 : ℝ) < n - 1 := by
    have : (2 : ℝ) ≤ n := by exact_mod_cast hn
    linarith
  have h0 : 0 ≤ b - a := by linarith
  have e : (i : ℝ) * ((b - a) / (n - 1)) = (b - a) * (i / (n - 1)) := by ring
  have h1 : (i : ℝ) / (n - 1) ≤ 1 := (div_le_one hn').2 hi'
  have h2 : (0 : ℝ) ≤ i / (n - 1) := by positivity
  rw [e]
  exact ⟨by nlinarith, by nlinarith⟩

theorem map_mul_chain {l : List ℝ} (h : l.IsChain (· ≤ ·)) {r : ℝ} (hr : 0 ≤ r) :
    (l.map (· * r)).IsChain (· ≤ ·) := by
  rw [List.isChain_iff_pairwise] at h ⊢
  rw [List.pairwise_map]
  exact h.imp fun hxy => mul_le_mul_of_nonneg_right hxy hr

theorem correctBoundary_pos {gamma : List ℝ} {a b : ℝ} (ha : 0 < a) (hb : 0 < b) (h : ∀ g ∈ gamma, 0 < g) :
    ∀ g ∈ correctBoundary gamma a b, 0 < g := by
  have h1 : ∀ g ∈ correctFirst a gamma, 0 < g := by
    rcases gamma with _ | ⟨g0, rest⟩
    · simp [correctFirst]
    · unfold correctFirst
      dsimp only
      split_ifs
      · intro g hg
        rcases List.mem_cons.1 hg with rfl | hg
        · exact ha
        · exact h g (List.mem_cons_of_mem _ hg)
      · exact h
  unfold correctBoundary
  generalize correctFirst a gamma = l at h1 ⊢
  rcases l with _ | ⟨g0, rest⟩
  · simp [correctLast]
  · unfold correctLast
    dsimp only
    split_ifs
    · intro g hg
      rcases List.mem_append.1 hg with hg | hg
      · exact h1 g (List.mem_of_mem_dropLast hg)
      · rw [List.mem_singleton.1 hg]; exact hb
    · exact h1

theorem afterCall_pos {d : Dist} (ha : 0 < d.gmin) (hb : 0 < d.gmax) {gamma : List ℝ} (h : ∀ g ∈ gamma, 0 < g) :
    ∀ g ∈ d.afterCall gamma, 0 < g := by
  unfold Dist.afterCall
  split
  · exact h
  · exact correctBoundary_pos ha hb h

/-! ### the grid of a blob -/

namespace Region.Blob

/-- the limits of the electron distribution are positive and ordered, and the grid has at least two points -/
structure GoodGrid (b : Blob) : Prop where
  pos : 0 < b.n_e.gmin
  lt : b.n_e.gmin < b.n_e.gmax
  size : 2 ≤ b.gamma_e_size

variable {b : Blob}

theorem GoodGrid.max_pos (h : b.GoodGrid) : 0 < b.n_e.gmax := h.pos.trans h.lt

theorem GoodGrid.ends (h : b.GoodGrid) : ∃ mid, b.gamma_e = b.n_e.gmin :: (mid ++ [b.n_e.gmax]) :=
  logspace_ends_n h.pos h.max_pos h.size

theorem GoodGrid.pairwise (h : b.GoodGrid) : b.gamma_e.Pairwise (· < ·) :=
  logspace_pairwise (log10_lt h.pos h.lt) _ h.size

theorem GoodGrid.chain (h : b.GoodGrid) : b.gamma_e.IsChain (· ≤ ·) := chain_le_of_pairwise h.pairwise

theorem gamma_e_pos (b : Blob) : ∀ g ∈ b.gamma_e, 0 < g := logspace_pos

/-- evaluating the distribution leaves the blob's own grid as it is -/
theorem GoodGrid.afterCall (h : b.GoodGrid) : b.n_e.afterCall b.gamma_e = b.gamma_e := by
  obtain ⟨mid, hm⟩ := h.ends
  unfold Dist.afterCall
  split
  · rfl
  · rw [hm, correctBoundary_id]

theorem GoodGrid.evaluate (h : b.GoodGrid) : b.n_e.evaluate b.gamma_e = (b.gamma_e, b.gamma_e.map b.n_e.call) := by
  unfold Dist.evaluate
  rw [h.afterCall]

end Region.Blob

end Verif
