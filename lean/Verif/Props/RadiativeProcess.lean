import Verif.Model.RadiativeProcess
import Verif.Lemmas.Radiation

/- C62 (peak of the SED) and C69 (integrated fluxes). -/

namespace Verif.RadiativeProcess

open MathUtils Spectra

/-! ### C62 -/

/-- the index `argmaxFrom` returns is the one it was given or one of the list's -/
theorem argmaxFrom_spec (l : List ℝ) : ∀ (pre : List ℝ) (best : ℝ) (idx : ℕ), pre[idx]? = some best →
    (∀ y ∈ pre, y ≤ best) → (∀ j < idx, ∀ y, pre[j]? = some y → y < best) →
    ∃ m, (pre ++ l)[argmaxFrom pre.length best idx l]? = some m ∧ (∀ y ∈ pre ++ l, y ≤ m)
      ∧ ∀ j < argmaxFrom pre.length best idx l, ∀ y, (pre ++ l)[j]? = some y → y < m := by
  induction l with
  | nil =>
    intro pre best idx h1 h2 h3
    refine ⟨best, ?_, ?_, ?_⟩
    · simpa [argmaxFrom] using h1
    · simpa using h2
    · simpa [argmaxFrom] using h3
  | cons x l ih =>
    intro pre best idx h1 h2 h3
    have e : pre ++ x :: l = (pre ++ [x]) ++ l := by simp
    have hl : pre.length + 1 = (pre ++ [x]).length := by simp
    have hlt : idx < pre.length := by
      by_contra hc
      rw [List.getElem?_eq_none (by omega)] at h1
      simp at h1
    rw [argmaxFrom, e, hl]
    split_ifs with hb
    · apply ih
      · simp
      · intro y hy
        rcases List.mem_append.1 hy with h | h
        · exact (h2 y h).trans hb.le
        · simp at h; exact h.le
      · intro j hj y hy
        rw [List.getElem?_append_left hj] at hy
        exact lt_of_le_of_lt (h2 y (List.mem_of_getElem? hy)) hb
    · push Not at hb
      apply ih
      · rw [List.getElem?_append_left hlt]; exact h1
      · intro y hy
        rcases List.mem_append.1 hy with h | h
        · exact h2 y h
        · simp at h; exact h.le.trans hb
      · intro j hj y hy
        rw [List.getElem?_append_left (by omega)] at hy
        exact h3 j hj y hy

/-- `argmax` is the first index of a largest element -/
theorem argmax_spec {l : List ℝ} (hl : l ≠ []) :
    ∃ i m, argmax l = some i ∧ l[i]? = some m ∧ (∀ y ∈ l, y ≤ m) ∧ ∀ j < i, ∀ y, l[j]? = some y → y < m := by
  cases l with
  | nil => exact absurd rfl hl
  | cons x l =>
    obtain ⟨m, h1, h2, h3⟩ := argmaxFrom_spec l [x] x 0 rfl (by simp) (by intro j hj; omega)
    exact ⟨_, m, rfl, h1, h2, h3⟩

/-- C62: on every non-empty array of frequencies the peak flux is attained at the peak frequency, and nothing in the
array exceeds it; the peak frequency is the first such -/
theorem C62_peak (sed : ℝ → ℝ) {nu : List ℝ} (h : nu ≠ []) :
    ∃ f p, sedPeakFlux sed nu = some f ∧ sedPeakNu sed nu = some p ∧ p ∈ nu ∧ sed p = f ∧ (∀ q ∈ nu, sed q ≤ f)
      ∧ ∃ before after, nu = before ++ p :: after ∧ ∀ q ∈ before, sed q < f := by
  obtain ⟨i, m, h1, h2, h3, h4⟩ := argmax_spec (l := nu.map sed) (by simpa using h)
  rw [List.getElem?_map, Option.map_eq_some_iff] at h2
  obtain ⟨p, hp, rfl⟩ := h2
  have hall : ∀ q ∈ nu, sed q ≤ sed p := fun q hq => h3 _ (List.mem_map_of_mem hq)
  refine ⟨sed p, p, ?_, ?_, List.mem_of_getElem? hp, rfl, hall, nu.take i, nu.drop (i + 1), ?_, ?_⟩
  · unfold sedPeakFlux
    rw [List.max?_eq_some_iff]
    exact ⟨List.mem_map_of_mem (List.mem_of_getElem? hp), h3⟩
  · unfold sedPeakNu
    rw [h1]
    exact hp
  · obtain ⟨hi, rfl⟩ := List.getElem?_eq_some_iff.1 hp
    simp
  · intro q hq
    obtain ⟨j, hj, rfl⟩ := List.getElem_of_mem hq
    rw [List.length_take] at hj
    have hj' : j < nu.length := by omega
    rw [List.getElem_take]
    exact h4 j (by omega) _ (by rw [List.getElem?_map, List.getElem?_eq_getElem hj']; rfl)

/-- C62: no frequency, no peak (Python raises a ValueError) -/
theorem C62_empty (sed : ℝ → ℝ) : sedPeakFlux sed [] = none ∧ sedPeakNu sed [] = none := ⟨rfl, rfl⟩

example : sedPeakNu (fun x => x * (4 - x)) [1, 2, 3] = some 2 := by
  norm_num [sedPeakNu, argmax, argmaxFrom]

/-! ### C69 -/

theorem nuLogspace_chain {a b : ℝ} (ha : 0 < a) (hab : a < b) {n : ℕ} (hn : 2 ≤ n) :
    (nuLogspace a b n).IsChain (· ≤ ·) := logspace_chain (log10_lt ha hab) hn

/-- C69: the integrated energy flux is not negative -/
theorem C69_energy_nonneg {sed : ℝ → ℝ} (hs : ∀ nu, 0 < nu → 0 ≤ sed nu) {a b : ℝ} (ha : 0 < a) (hab : a < b) {n : ℕ}
    (hn : 2 ≤ n) : 0 ≤ energyFluxIntegral sed a b n := by
  apply over_trapz_nonneg (nuLogspace_chain ha hab hn)
  intro x hx
  have := logspace_pos x hx
  exact div_nonneg (hs x this) this.le

theorem C69_flux_nonneg {k : Consts} (hk : k.Pos) {sed : ℝ → ℝ} (hs : ∀ nu, 0 < nu → 0 ≤ sed nu) {a b : ℝ} (ha : 0 < a)
    (hab : a < b) {n : ℕ} (hn : 2 ≤ n) : 0 ≤ fluxIntegral k sed a b n := by
  unfold fluxIntegral
  dsimp only
  have hh := hk.h
  apply C33_trapz_nonneg
  · rw [List.isChain_map]
    exact (nuLogspace_chain ha hab hn).imp fun _ _ h => mul_le_mul_of_nonneg_left h hh.le
  · intro y hy
    obtain ⟨x, hx, rfl⟩ := List.mem_map.1 hy
    have := logspace_pos x hx
    exact div_nonneg (hs x this) (sq_nonneg _)

/-- C69: both integrals are linear in the SED -/
theorem C69_energy_linear (c d : ℝ) (s t : ℝ → ℝ) (a b : ℝ) (n : ℕ) :
    energyFluxIntegral (fun x => c * s x + d * t x) a b n
      = c * energyFluxIntegral s a b n + d * energyFluxIntegral t a b n := by
  unfold energyFluxIntegral
  dsimp only
  generalize nuLogspace a b n = l
  induction l with
  | nil => simp [trapz]
  | cons x l ih =>
    cases l with
    | nil => simp [trapz]
    | cons y l =>
      simp only [List.map_cons, trapz] at ih ⊢
      rw [ih]
      ring

theorem C69_flux_linear (k : Consts) (c d : ℝ) (s t : ℝ → ℝ) (a b : ℝ) (n : ℕ) :
    fluxIntegral k (fun x => c * s x + d * t x) a b n
      = c * fluxIntegral k s a b n + d * fluxIntegral k t a b n := by
  unfold fluxIntegral diffEnergyFlux
  dsimp only
  generalize nuLogspace a b n = l
  induction l with
  | nil => simp [trapz]
  | cons x l ih =>
    cases l with
    | nil => simp [trapz]
    | cons y l =>
      simp only [List.map_cons, trapz] at ih ⊢
      rw [ih]
      ring

/-- C69: the photon flux above the lower edge carries at least that energy per photon and at most the energy of the upper
edge: the energy flux in the band lies between the photon flux times the energies of its edges -/
theorem C69_band {k : Consts} (hk : k.Pos) {sed : ℝ → ℝ} (hs : ∀ nu, 0 < nu → 0 ≤ sed nu) {a b : ℝ} (ha : 0 < a)
    (hab : a < b) {n : ℕ} (hn : 2 ≤ n) :
    k.h * a * fluxIntegral k sed a b n ≤ energyFluxIntegral sed a b n
      ∧ energyFluxIntegral sed a b n ≤ k.h * b * fluxIntegral k sed a b n := by
  have hh := hk.h
  have hb : 0 < b := ha.trans hab
  have hmem : ∀ x ∈ nuLogspace a b n, a ≤ x ∧ x ≤ b := by
    intro x hx
    obtain ⟨e, he, rfl⟩ := List.mem_map.1 hx
    have h1 := linspace_mem (log10_lt ha hab).le hn he
    have e1 : (10 : ℝ) ^ log10 a = a := ten_pow_log10 ha
    have e2 : (10 : ℝ) ^ log10 b = b := ten_pow_log10 hb
    constructor
    · conv_lhs => rw [← e1]
      exact Real.rpow_le_rpow_of_exponent_le (by norm_num) h1.1
    · conv_rhs => rw [← e2]
      exact Real.rpow_le_rpow_of_exponent_le (by norm_num) h1.2
  have hc := nuLogspace_chain ha hab hn
  have hpos : ∀ x ∈ nuLogspace a b n, 0 < x := logspace_pos
  unfold energyFluxIntegral fluxIntegral diffEnergyFlux
  dsimp only
  revert hmem hc hpos
  generalize nuLogspace a b n = l
  intro hmem hc hpos
  have key : ∀ x ∈ l, k.h * a * (k.h * (sed x / (k.h * x) ^ 2)) ≤ sed x / x
      ∧ sed x / x ≤ k.h * b * (k.h * (sed x / (k.h * x) ^ 2)) := by
    intro x hx
    have hx0 := hpos x hx
    have hs0 := hs x hx0
    obtain ⟨h1, h2⟩ := hmem x hx
    have e : ∀ y : ℝ, k.h * y * (k.h * (sed x / (k.h * x) ^ 2)) = y / x * (sed x / x) := by
      intro y
      field_simp
    rw [e, e]
    have hq : 0 ≤ sed x / x := div_nonneg hs0 hx0.le
    constructor
    · have : a / x ≤ 1 := (div_le_one hx0).2 h1
      nlinarith
    · have : 1 ≤ b / x := (one_le_div hx0).2 h2
      nlinarith
  clear hmem hpos
  induction l with
  | nil => simp [trapz]
  | cons x l ih =>
    cases l with
    | nil => simp [trapz]
    | cons y l =>
      rw [List.isChain_cons_cons] at hc
      obtain ⟨i1, i2⟩ := ih hc.2 fun z hz => key z (List.mem_cons_of_mem _ hz)
      simp only [List.map_cons, trapz] at i1 i2 ⊢
      have kx := key x (by simp)
      have ky := key y (by simp)
      have hd : 0 ≤ y - x := by linarith [hc.1]
      constructor
      · have := mul_le_mul_of_nonneg_left (add_le_add kx.1 ky.1) hd
        nlinarith
      · have := mul_le_mul_of_nonneg_left (add_le_add kx.2 ky.2) hd
        nlinarith

theorem nuLogspace_ends {a b : ℝ} (ha : 0 < a) (hb : 0 < b) {n : ℕ} (hn : 2 ≤ n) :
    ∃ xs, nuLogspace a b n = a :: xs ∧ (a :: xs).getLast (by simp) = b := by
  obtain ⟨mid, hm⟩ := logspace_ends_n ha hb hn
  exact ⟨mid ++ [b], hm, by simp⟩

/-- C69: the integral of a flux density that is constant in the band is that constant times the width of the band -/
theorem C69_energy_exact {sed : ℝ → ℝ} {f : ℝ} (hs : ∀ nu, 0 < nu → sed nu = f * nu) {a b : ℝ} (ha : 0 < a) (hb : 0 < b)
    {n : ℕ} (hn : 2 ≤ n) : energyFluxIntegral sed a b n = f * (b - a) := by
  unfold energyFluxIntegral
  dsimp only
  rw [List.map_congr_left (g := fun p => f + 0 * p)]
  · obtain ⟨xs, h1, h2⟩ := nuLogspace_ends ha hb hn
    rw [h1, C33_trapz_affine, h2]
    simp [mul_comm]
  · intro x hx
    have : 0 < x := logspace_pos x hx
    rw [hs x this]
    field_simp
    ring

/-- C69: the integral of a differential photon flux that is constant in the band is that constant times the width of the
band in energy -/
theorem C69_flux_exact {k : Consts} (hk : k.Pos) {sed : ℝ → ℝ} {f : ℝ} (hs : ∀ nu, 0 < nu → sed nu = f * (k.h * nu) ^ 2)
    {a b : ℝ} (ha : 0 < a) (hb : 0 < b) {n : ℕ} (hn : 2 ≤ n) : fluxIntegral k sed a b n = f * (k.h * b - k.h * a) := by
  have hh := hk.h
  unfold fluxIntegral diffEnergyFlux
  dsimp only
  rw [List.map_congr_left (g := fun _ => f)]
  · obtain ⟨xs, h1, h2⟩ := nuLogspace_ends ha hb hn
    have := C33_trapz_affine f 0 (k.h * a) (xs.map (k.h * ·))
    rw [h1, List.map_cons (f := (k.h * ·))]
    simp only [zero_mul, add_zero, intervalIntegral.integral_const, smul_eq_mul] at this
    have hlast : (k.h * a :: xs.map (k.h * ·)).getLast (by simp) = k.h * b := by
      have := List.getLast_map (f := (k.h * ·)) (l := a :: xs) (by simp)
      rw [h2] at this
      exact this
    rw [hlast] at this
    rw [mul_comm f, ← this]
    simp [List.map_map, Function.comp_def]
  · intro x hx
    have : 0 < x := logspace_pos x hx
    rw [hs x this]
    field_simp

/-- a flat SED: the photon flux -/
example : 0 ≤ fluxIntegral ⟨1, 1, 1, 1, 1, 1, 1, 1, 1, 1⟩ (fun _ => 1) 1 10 50 :=
  C69_flux_nonneg (by constructor <;> norm_num) (by intro _ _; norm_num) (by norm_num) (by norm_num) (by norm_num)

end Verif.RadiativeProcess
