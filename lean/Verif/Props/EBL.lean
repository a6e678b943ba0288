import Verif.Model.EBL
import Mathlib.Tactic.Linarith
import Mathlib.Tactic.Ring
import Mathlib.Tactic.Positivity
import Mathlib.Tactic.FieldSimp

/- C61: the interpolated EBL absorption. -/

namespace Verif.EBL

/-! ### one dimension -/

theorem locate_some {grid : List ℝ} (hl : 2 ≤ grid.length) (x : ℝ) :
    ∃ i a, locate grid x = some (i, a) ∧ i + 1 < grid.length := by
  fun_induction locate grid x with
  | case1 g0 g1 x => exact ⟨0, _, rfl, by simp⟩
  | case2 g0 g1 g2 gs x h => exact ⟨0, _, rfl, by simp⟩
  | case3 g0 g1 g2 gs x h ih =>
    obtain ⟨i, a, h1, h2⟩ := ih (by simp)
    refine ⟨i + 1, a, by rw [h1]; rfl, ?_⟩
    simp only [List.length_cons] at h2 ⊢
    omega
  | case4 grid x h1 h2 =>
    match grid, hl with
    | [g0, g1], _ => exact absurd rfl (h1 g0 g1)
    | g0 :: g1 :: g2 :: gs, _ => exact absurd rfl (h2 g0 g1 g2 gs)

/-- in the bounds of an ascending grid: the point lies in the interval found, at the relative position found -/
theorem locate_spec {grid : List ℝ} (hg : grid.Pairwise (· < ·)) {x : ℝ} (hx : ¬ outside grid x) {i : ℕ} {a : ℝ}
    (h : locate grid x = some (i, a)) :
    ∃ u v, grid[i]? = some u ∧ grid[i + 1]? = some v ∧ u < v ∧ u ≤ x ∧ x ≤ v ∧ x = u + a * (v - u)
      ∧ (x < v ∨ i + 2 = grid.length) := by
  fun_induction locate grid x generalizing i a with
  | case1 g0 g1 x =>
    simp only [Option.some.injEq, Prod.mk.injEq] at h
    obtain ⟨rfl, rfl⟩ := h
    simp only [outside, List.head?_cons, List.getLast?_cons_cons, List.getLast?_singleton, not_or, not_lt] at hx
    have : g0 < g1 := by simpa using hg
    refine ⟨g0, g1, rfl, rfl, this, hx.1, hx.2, ?_, Or.inr rfl⟩
    rw [div_mul_cancel₀ _ (by linarith)]
    ring
  | case2 g0 g1 g2 gs x hlt =>
    simp only [Option.some.injEq, Prod.mk.injEq] at h
    obtain ⟨rfl, rfl⟩ := h
    have h01 : g0 < g1 := (List.pairwise_cons.1 hg).1 g1 (by simp)
    have hx0 : g0 ≤ x := by
      unfold outside at hx
      rw [List.getLast?_eq_some_getLast (by simp)] at hx
      simp only [List.head?_cons, not_or, not_lt] at hx
      exact hx.1
    refine ⟨g0, g1, rfl, rfl, h01, hx0, hlt.le, ?_, Or.inl hlt⟩
    rw [div_mul_cancel₀ _ (by linarith)]
    ring
  | case3 g0 g1 g2 gs x hlt ih =>
    rw [Option.map_eq_some_iff] at h
    obtain ⟨⟨j, b⟩, hj, hjb⟩ := h
    simp only [Prod.mk.injEq] at hjb
    obtain ⟨rfl, rfl⟩ := hjb
    have hx' : ¬ outside (g1 :: g2 :: gs) x := by
      unfold outside at hx ⊢
      rw [List.getLast?_eq_some_getLast (by simp)] at hx ⊢
      simp only [List.head?_cons, not_or, not_lt] at hx ⊢
      refine ⟨not_lt.1 hlt, ?_⟩
      have := hx.2
      rwa [List.getLast_cons (by simp)] at this
    obtain ⟨u, v, h1, h2, h3, h4, h5, h6, h7⟩ := ih (List.pairwise_cons.1 hg).2 hx' hj
    refine ⟨u, v, by simpa using h1, by simpa using h2, h3, h4, h5, h6, ?_⟩
    rcases h7 with h7 | h7
    · exact Or.inl h7
    · right
      simp only [List.length_cons] at h7 ⊢
      omega
  | case4 grid x h1 h2 => simp at h

theorem position {u v x a : ℝ} (h : u < v) (h1 : u ≤ x) (h2 : x ≤ v) (e : x = u + a * (v - u)) : a ∈ Set.Icc 0 1 := by
  have hp : 0 < v - u := by linarith
  constructor
  · by_contra hc
    push Not at hc
    nlinarith
  · by_contra hc
    push Not at hc
    nlinarith

/-! ### bounds -/

/-- `v` lies between `lo` and `hi` -/
def Between (lo hi v : ℝ) : Prop := lo ≤ v ∧ v ≤ hi

theorem Between.mix {lo hi v w a : ℝ} (ha : a ∈ Set.Icc (0 : ℝ) 1) (hv : Between lo hi v) (hw : Between lo hi w) :
    Between lo hi ((1 - a) * v + a * w) := by
  obtain ⟨a0, a1⟩ := ha
  obtain ⟨v0, v1⟩ := hv
  obtain ⟨w0, w1⟩ := hw
  have h1 : 0 ≤ 1 - a := by linarith
  constructor
  · nlinarith [mul_le_mul_of_nonneg_left v0 h1, mul_le_mul_of_nonneg_left w0 a0]
  · nlinarith [mul_le_mul_of_nonneg_left v1 h1, mul_le_mul_of_nonneg_left w1 a0]

theorem at_some {t : Table} (h : t.Valid) {i j : ℕ} (hi : i < t.energy.length) (hj : j < t.z.length) :
    ∃ v, t.at i j = some v := by
  have hj' : j < t.values.length := by rw [h.rows]; exact hj
  have hi' : i < t.values[j].length := by rw [h.columns _ (List.getElem_mem _)]; exact hi
  refine ⟨t.values[j][i], ?_⟩
  unfold Table.at
  rw [List.getElem?_eq_getElem hj', Option.bind_some, List.getElem?_eq_getElem hi']

/-- C61: inside the table the result is a mean of the four values tabulated around the point: it lies between the
smallest and the largest of them -/
theorem C61_between {t : Table} (h : t.Valid) {e z : ℝ} (he : ¬ outside t.energy e) (hz : ¬ outside t.z z) :
    ∃ v i j e0 e1 z0 z1 v00 v01 v10 v11, t.interpolate e z = some v
      ∧ t.energy[i]? = some e0 ∧ t.energy[i + 1]? = some e1 ∧ e0 ≤ e ∧ e ≤ e1
      ∧ t.z[j]? = some z0 ∧ t.z[j + 1]? = some z1 ∧ z0 ≤ z ∧ z ≤ z1
      ∧ t.at i j = some v00 ∧ t.at i (j + 1) = some v01 ∧ t.at (i + 1) j = some v10 ∧ t.at (i + 1) (j + 1) = some v11
      ∧ min (min v00 v01) (min v10 v11) ≤ v ∧ v ≤ max (max v00 v01) (max v10 v11) := by
  obtain ⟨i, a, hi, hil⟩ := locate_some h.energy_size e
  obtain ⟨j, b, hj, hjl⟩ := locate_some h.z_size z
  obtain ⟨e0, e1, p1, p2, p3, p4, p5, p6, -⟩ := locate_spec h.energy he hi
  obtain ⟨z0, z1, q1, q2, q3, q4, q5, q6, -⟩ := locate_spec h.z hz hj
  obtain ⟨v00, w00⟩ := at_some h (i := i) (j := j) (by omega) (by omega)
  obtain ⟨v01, w01⟩ := at_some h (i := i) (j := j + 1) (by omega) (by omega)
  obtain ⟨v10, w10⟩ := at_some h (i := i + 1) (j := j) (by omega) (by omega)
  obtain ⟨v11, w11⟩ := at_some h (i := i + 1) (j := j + 1) (by omega) (by omega)
  have ha := position p3 p4 p5 p6
  have hb := position q3 q4 q5 q6
  refine ⟨(1 - a) * (1 - b) * v00 + (1 - a) * b * v01 + a * (1 - b) * v10 + a * b * v11, i, j, e0, e1, z0, z1, v00,
    v01, v10, v11, ?_, p1, p2, p4, p5, q1, q2, q4, q5, w00, w01, w10, w11, ?_⟩
  · unfold Table.interpolate
    rw [if_neg (by simp [he, hz]), hi, hj]
    simp [w00, w01, w10, w11]
  · have e1 : (1 - a) * (1 - b) * v00 + (1 - a) * b * v01 + a * (1 - b) * v10 + a * b * v11
        = (1 - a) * ((1 - b) * v00 + b * v01) + a * ((1 - b) * v10 + b * v11) := by ring
    rw [e1]
    apply Between.mix ha <;> apply Between.mix hb <;> constructor
    · exact (min_le_left _ _).trans (min_le_left _ _)
    · exact (le_max_left _ _).trans (le_max_left _ _)
    · exact (min_le_left _ _).trans (min_le_right _ _)
    · exact (le_max_right _ _).trans (le_max_left _ _)
    · exact (min_le_right _ _).trans (min_le_left _ _)
    · exact (le_max_left _ _).trans (le_max_right _ _)
    · exact (min_le_right _ _).trans (min_le_right _ _)
    · exact (le_max_right _ _).trans (le_max_right _ _)

/-- C61: in particular the absorption lies in [0, 1] if all tabulated values do -/
theorem C61_unit {t : Table} (h : t.Valid) (hv : ∀ row ∈ t.values, ∀ v ∈ row, v ∈ Set.Icc (0 : ℝ) 1) {e z v : ℝ}
    (hr : t.interpolate e z = some v) : v ∈ Set.Icc (0 : ℝ) 1 := by
  have hin : ¬ outside t.energy e ∧ ¬ outside t.z z := by
    by_contra hc
    rw [← not_or, not_not] at hc
    unfold Table.interpolate at hr
    rw [if_pos hc] at hr
    simp at hr
  obtain ⟨v', i, j, e0, e1, z0, z1, v00, v01, v10, v11, h1, -, -, -, -, -, -, -, -, w00, w01, w10, w11, l, u⟩ :=
    C61_between h hin.1 hin.2
  rw [hr, Option.some.injEq] at h1
  subst h1
  have hat : ∀ i j v, t.at i j = some v → v ∈ Set.Icc (0 : ℝ) 1 := by
    intro i j v hw
    unfold Table.at at hw
    rw [Option.bind_eq_some_iff] at hw
    obtain ⟨row, hr, hw⟩ := hw
    exact hv row (List.mem_of_getElem? hr) v (List.mem_of_getElem? hw)
  have a := hat _ _ _ w00; have b := hat _ _ _ w01; have c := hat _ _ _ w10; have d := hat _ _ _ w11
  exact ⟨(le_min (le_min a.1 b.1) (le_min c.1 d.1)).trans l, u.trans (max_le (max_le a.2 b.2) (max_le c.2 d.2))⟩

/-- C61: outside the table, and only there, the result is NaN -/
theorem C61_nan {t : Table} (h : t.Valid) (e z : ℝ) : t.interpolate e z = none ↔ outside t.energy e ∨ outside t.z z := by
  constructor
  · intro hn
    by_contra hc
    rw [not_or] at hc
    obtain ⟨v, i, j, e0, e1, z0, z1, v00, v01, v10, v11, h1, -⟩ := C61_between h hc.1 hc.2
    rw [hn] at h1
    simp at h1
  · intro ho
    unfold Table.interpolate
    rw [if_pos ho]

/-! ### nodes -/

theorem outside_node {grid : List ℝ} (hg : grid.Pairwise (· < ·)) {n : ℕ} {x : ℝ} (hx : grid[n]? = some x) :
    ¬ outside grid x := by
  obtain ⟨hn, rfl⟩ := List.getElem?_eq_some_iff.1 hx
  have hne : grid ≠ [] := by rintro rfl; simp at hn
  unfold outside
  rw [List.head?_eq_some_head hne, List.getLast?_eq_some_getLast hne]
  simp only [not_or, not_lt]
  rw [List.pairwise_iff_getElem] at hg
  constructor
  · rw [List.head_eq_getElem hne]
    rcases Nat.eq_zero_or_pos n with rfl | h0
    · exact le_rfl
    · exact (hg 0 n _ hn h0).le
  · rw [List.getLast_eq_getElem hne]
    rcases Nat.lt_or_ge n (grid.length - 1) with h1 | h1
    · exact (hg n _ hn _ h1).le
    · have : n = grid.length - 1 := by omega
      subst this
      exact le_rfl

/-- interpolation in one dimension gives back the value of a node: index and position select it -/
theorem locate_node {grid : List ℝ} (hg : grid.Pairwise (· < ·)) (hl : 2 ≤ grid.length) {n : ℕ} {x : ℝ}
    (hx : grid[n]? = some x) :
    ∃ i a, locate grid x = some (i, a) ∧ i + 1 < grid.length ∧ ((i = n ∧ a = 0) ∨ (i + 1 = n ∧ a = 1)) := by
  obtain ⟨i, a, hi, hil⟩ := locate_some hl x
  obtain ⟨u, v, p1, p2, p3, p4, p5, p6, p7⟩ := locate_spec hg (outside_node hg hx) hi
  refine ⟨i, a, hi, hil, ?_⟩
  obtain ⟨hn, rfl⟩ := List.getElem?_eq_some_iff.1 hx
  obtain ⟨hi1, rfl⟩ := List.getElem?_eq_some_iff.1 p1
  obtain ⟨hi2, rfl⟩ := List.getElem?_eq_some_iff.1 p2
  rw [List.pairwise_iff_getElem] at hg
  have hge : i ≤ n := by
    by_contra hc
    push Not at hc
    have := hg n i hn hi1 hc
    linarith
  have hle : n ≤ i + 1 := by
    by_contra hc
    push Not at hc
    have := hg (i + 1) n hi2 hn hc
    linarith
  rcases Nat.lt_or_ge i n with h1 | h1
  · right
    have : n = i + 1 := by omega
    subst this
    refine ⟨rfl, ?_⟩
    have hp : grid[i + 1] - grid[i] ≠ 0 := by linarith
    have : (a - 1) * (grid[i + 1] - grid[i]) = 0 := by linarith
    rcases mul_eq_zero.1 this with h | h
    · linarith
    · exact absurd h hp
  · left
    have : n = i := by omega
    subst this
    refine ⟨rfl, ?_⟩
    have hp : grid[n + 1] - grid[n] ≠ 0 := by linarith
    have : a * (grid[n + 1] - grid[n]) = 0 := by linarith
    rcases mul_eq_zero.1 this with h | h
    · exact h
    · exact absurd h hp

/-- C61: at the nodes the tabulated values are reproduced -/
theorem C61_node {t : Table} (h : t.Valid) {m n : ℕ} {e z : ℝ} (he : t.energy[m]? = some e) (hz : t.z[n]? = some z) :
    t.interpolate e z = t.at m n := by
  obtain ⟨i, a, hi, hil, hia⟩ := locate_node h.energy h.energy_size he
  obtain ⟨j, b, hj, hjl, hjb⟩ := locate_node h.z h.z_size hz
  obtain ⟨v00, w00⟩ := at_some h (i := i) (j := j) (by omega) (by omega)
  obtain ⟨v01, w01⟩ := at_some h (i := i) (j := j + 1) (by omega) (by omega)
  obtain ⟨v10, w10⟩ := at_some h (i := i + 1) (j := j) (by omega) (by omega)
  obtain ⟨v11, w11⟩ := at_some h (i := i + 1) (j := j + 1) (by omega) (by omega)
  unfold Table.interpolate
  rw [if_neg (by simp [outside_node h.energy he, outside_node h.z hz]), hi, hj]
  simp only [Option.bind_eq_bind, Option.bind_some, w00, w01, w10, w11]
  rcases hia with ⟨rfl, rfl⟩ | ⟨rfl, rfl⟩ <;> rcases hjb with ⟨rfl, rfl⟩ | ⟨rfl, rfl⟩ <;>
    simp [w00, w01, w10, w11]

/-! ### loading -/

/-- C61: removing one of two repeated redshifts leaves an ascending grid -/
theorem C61_repeated {zs : List ℝ} {n : ℕ} (h : ∀ i j (hi : i < zs.length) (hj : j < zs.length), i < j →
    zs[i] < zs[j] ∨ (i = n ∧ j = n + 1)) : (zs.eraseIdx n).Pairwise (· < ·) := by
  rw [List.pairwise_iff_getElem]
  intro i j hi hj hij
  by_cases hn : n < zs.length
  · rw [List.length_eraseIdx_of_lt hn] at hi hj
    rw [List.getElem_eraseIdx, List.getElem_eraseIdx]
    split_ifs with h1 h2 h2
    · rcases h i j (by omega) (by omega) hij with h' | h'
      · exact h'
      · omega
    · rcases h i (j + 1) (by omega) (by omega) (by omega) with h' | h'
      · exact h'
      · omega
    · omega
    · rcases h (i + 1) (j + 1) (by omega) (by omega) (by omega) with h' | h'
      · exact h'
      · omega
  · rw [List.eraseIdx_of_length_le (by omega)] at hi hj
    simp only [List.eraseIdx_of_length_le (show zs.length ≤ n by omega)]
    rcases h i j hi hj hij with h' | h'
    · exact h'
    · omega

/-- C61: the energies taken from ascending adjoining bins are ascending -/
theorem C61_energies {lo hi : List ℝ} (hl : lo.length = hi.length)
    (hb : ∀ i (h1 : i < lo.length) (h2 : i < hi.length), 0 < lo[i] ∧ lo[i] < hi[i])
    (ha : ∀ i j (h1 : i < hi.length) (h2 : j < lo.length), i < j → hi[i] ≤ lo[j]) :
    (List.zipWith (fun lo hi => √(lo * hi)) lo hi).Pairwise (· < ·) := by
  rw [List.pairwise_iff_getElem]
  intro i j h1 h2 hij
  rw [List.length_zipWith, hl, min_self] at h1 h2
  rw [List.getElem_zipWith, List.getElem_zipWith]
  obtain ⟨a1, a2⟩ := hb i (by omega) h1
  obtain ⟨b1, b2⟩ := hb j (by omega) h2
  have a3 := ha i j h1 (by omega) hij
  have a4 := a1.trans a2
  apply Real.sqrt_lt_sqrt (by positivity)
  nlinarith

/-- C61: an object exists only for a known model; then its table can be interpolated -/
theorem C61_new {model : String} {f : File} {t : Table} (h : new model f = some t) :
    model ∈ models ∧ t = load model f ∧ t.Valid := by
  unfold new at h
  split_ifs at h with h1 h2
  · rw [Option.some.injEq] at h
    subst h
    exact ⟨h1, rfl, h2⟩

/-! ### monotonicity -/

/-- values at two redshifts are mixtures; here for one energy -/
theorem mix_antitone {zs : List ℝ} (hg : zs.Pairwise (· < ·)) (f : ℕ → ℝ)
    (hf : ∀ i j, i ≤ j → j < zs.length → f j ≤ f i) {x y : ℝ} (hx : ¬ outside zs x) (hy : ¬ outside zs y) (hxy : x ≤ y)
    {i j : ℕ} {a b : ℝ} (h1 : locate zs x = some (i, a)) (h2 : locate zs y = some (j, b)) :
    (1 - b) * f j + b * f (j + 1) ≤ (1 - a) * f i + a * f (i + 1) := by
  obtain ⟨u, v, p1, p2, p3, p4, p5, p6, p7⟩ := locate_spec hg hx h1
  obtain ⟨u', v', q1, q2, q3, q4, q5, q6, q7⟩ := locate_spec hg hy h2
  have ha := position p3 p4 p5 p6
  have hb := position q3 q4 q5 q6
  obtain ⟨hi1, rfl⟩ := List.getElem?_eq_some_iff.1 p1
  obtain ⟨hi2, rfl⟩ := List.getElem?_eq_some_iff.1 p2
  obtain ⟨hj1, rfl⟩ := List.getElem?_eq_some_iff.1 q1
  obtain ⟨hj2, rfl⟩ := List.getElem?_eq_some_iff.1 q2
  have fi := hf i (i + 1) (by omega) hi2
  have fj := hf j (j + 1) (by omega) hj2
  rcases lt_trichotomy i j with hij | hij | hij
  · have fij := hf (i + 1) j (by omega) (by omega)
    nlinarith [ha.1, ha.2, hb.1, hb.2]
  · subst hij
    have hp : 0 < zs[i + 1] - zs[i] := by linarith
    have hab : a ≤ b := by
      by_contra hc
      push Not at hc
      nlinarith
    nlinarith
  · have hg' := List.pairwise_iff_getElem.1 hg
    rcases q7 with q7 | q7
    · have : zs[j + 1] ≤ zs[i] := by
        rcases Nat.lt_or_ge (j + 1) i with h | h
        · exact (hg' _ _ hj2 hi1 h).le
        · have : i = j + 1 := by omega
          subst this
          exact le_rfl
      linarith
    · omega

/-- C61: if the tabulated values fall with redshift at every energy, so does the interpolated absorption -/
theorem C61_redshift {t : Table} (h : t.Valid)
    (hf : ∀ i j j' v v', j ≤ j' → t.at i j = some v → t.at i j' = some v' → v' ≤ v) {e z z' v v' : ℝ} (hz : z ≤ z')
    (h1 : t.interpolate e z = some v) (h2 : t.interpolate e z' = some v') : v' ≤ v := by
  have hin : ∀ z v, t.interpolate e z = some v → ¬ outside t.energy e ∧ ¬ outside t.z z := by
    intro z v hr
    rw [← not_or, ← C61_nan h, hr]
    simp
  obtain ⟨he, hz1⟩ := hin z v h1
  obtain ⟨-, hz2⟩ := hin z' v' h2
  obtain ⟨i, a, hi, hil⟩ := locate_some h.energy_size e
  obtain ⟨e0, e1, p1, p2, p3, p4, p5, p6, -⟩ := locate_spec h.energy he hi
  have ha := position p3 p4 p5 p6
  obtain ⟨j, b, hj, hjl⟩ := locate_some h.z_size z
  obtain ⟨j', b', hj', hjl'⟩ := locate_some h.z_size z'
  let F : ℕ → ℕ → ℝ := fun i j => (t.at i j).getD 0
  have hF : ∀ i j, i < t.energy.length → j < t.z.length → t.at i j = some (F i j) := by
    intro i j h3 h4
    obtain ⟨w, hw⟩ := at_some h h3 h4
    simp only [F, hw, Option.getD_some]
  have key : ∀ z j b v, locate t.z z = some (j, b) → j + 1 < t.z.length → ¬ outside t.z z →
      t.interpolate e z = some v →
      v = (1 - a) * ((1 - b) * F i j + b * F i (j + 1)) + a * ((1 - b) * F (i + 1) j + b * F (i + 1) (j + 1)) := by
    intro z j b v hl hlt ho hr
    unfold Table.interpolate at hr
    rw [if_neg (by simp [he, ho]), hi, hl] at hr
    simp only [Option.bind_eq_bind, Option.bind_some, hF i j (by omega) (by omega), hF i (j + 1) (by omega) hlt,
      hF (i + 1) j hil (by omega), hF (i + 1) (j + 1) hil hlt, Option.pure_def, Option.some.injEq] at hr
    rw [← hr]
    ring
  rw [key z j b v hj hjl hz1 h1, key z' j' b' v' hj' hjl' hz2 h2]
  have m : ∀ i, i < t.energy.length →
      (1 - b') * F i j' + b' * F i (j' + 1) ≤ (1 - b) * F i j + b * F i (j + 1) := by
    intro i hi'
    exact mix_antitone h.z (F i) (fun p q hpq hq => hf i p q _ _ hpq (hF i p hi' (by omega)) (hF i q hi' hq)) hz1 hz2 hz hj hj'
  have m1 := m i (by omega)
  have m2 := m (i + 1) hil
  nlinarith [ha.1, ha.2, mul_le_mul_of_nonneg_left m1 (by linarith [ha.2] : 0 ≤ 1 - a),
    mul_le_mul_of_nonneg_left m2 ha.1]

/-- C61, nodes: at the geometric mean of the edges of an energy bin of the file and at a redshift of the file the
absorption is the tabulated one (the removed redshift of one model excepted) -/
theorem C61_file {model : String} {f : File} {t : Table} (hn : new model f = some t) {i j : ℕ} {lo hi z v : ℝ}
    {row : List ℝ} (hlo : f.energ_lo[i]? = some lo) (hhi : f.energ_hi[i]? = some hi) (hz : f.paramval[j]? = some z)
    (hrow : f.intpspec[j]? = some row) (hv : row[i]? = some v) (hj : model = "franceschini_2008" → j ≠ 1001)
    {k : Consts} {keV nu : ℝ} (hk : 0 < keV) (hnu : k.h * nu = √(lo * hi) * keV) :
    t.absorption k keV nu z = some v := by
  obtain ⟨_, rfl, hval⟩ := C61_new hn
  unfold Table.absorption
  rw [hnu, mul_div_assoc, div_self hk.ne', mul_one]
  have he : (load model f).energy[i]? = some √(lo * hi) := by
    unfold load
    split <;> simp [List.getElem?_zipWith, hlo, hhi]
  by_cases hm : model = "franceschini_2008"
  · have hj' := hj hm
    rcases lt_or_gt_of_ne hj' with h | h
    · have e1 : (load model f).z[j]? = some z := by
        unfold load
        rw [if_pos hm]
        simp [List.getElem?_eraseIdx, h, hz]
      have e2 : (load model f).at i j = some v := by
        unfold load Table.at
        rw [if_pos hm]
        simp [List.getElem?_eraseIdx, h, hrow, hv]
      rw [C61_node hval he e1, e2]
    · have h1 : ¬ j - 1 < 1001 := by omega
      have h2 : j - 1 + 1 = j := by omega
      have e1 : (load model f).z[j - 1]? = some z := by
        unfold load
        rw [if_pos hm]
        simp [List.getElem?_eraseIdx, h1, h2, hz]
      have e2 : (load model f).at i (j - 1) = some v := by
        unfold load Table.at
        rw [if_pos hm]
        simp [List.getElem?_eraseIdx, h1, h2, hrow, hv]
      rw [C61_node hval he e1, e2]
  · have e1 : (load model f).z[j]? = some z := by
      unfold load
      rw [if_neg hm]
      exact hz
    have e2 : (load model f).at i j = some v := by
      unfold load Table.at
      rw [if_neg hm]
      simp [hrow, hv]
    rw [C61_node hval he e1, e2]

/-- C61: `EBL.absorption` of a loaded model with tabulated values in [0, 1]: a number in [0, 1] where the energy h nu and
the redshift are covered by the table, NaN elsewhere -/
theorem C61_absorption {model : String} {f : File} {t : Table} (hn : new model f = some t)
    (hv : ∀ row ∈ f.intpspec, ∀ v ∈ row, v ∈ Set.Icc (0 : ℝ) 1) (k : Consts) (keV nu z : ℝ) :
    (outside t.energy (k.h * nu / keV) ∨ outside t.z z) ∧ t.absorption k keV nu z = none
      ∨ ∃ v ∈ Set.Icc (0 : ℝ) 1, t.absorption k keV nu z = some v := by
  obtain ⟨-, ht, hval⟩ := C61_new hn
  have hsub : ∀ row ∈ t.values, row ∈ f.intpspec := by
    rw [ht]
    unfold load
    dsimp only
    split_ifs
    · intro row hr
      exact List.mem_of_mem_eraseIdx hr
    · exact fun _ h => h
  cases hr : t.absorption k keV nu z with
  | none => exact Or.inl ⟨(C61_nan hval _ _).1 hr, rfl⟩
  | some v => exact Or.inr ⟨v, C61_unit hval (fun row h => hv row (hsub row h)) hr, rfl⟩

/-! ### an instance -/

/-- a small table -/
def demo : Table := ⟨[1, 2, 4], [0, 1], [[1, 1, 1], [1, 0.5, 0.25]]⟩

theorem demo_valid : demo.Valid := by
  constructor <;> simp [demo]
  norm_num

example : demo.interpolate 3 0.5 = some 0.6875 := by
  unfold Table.interpolate
  rw [if_neg (by simp [demo, outside]; norm_num)]
  simp [demo, locate, Table.at]
  norm_num

example : demo.interpolate 5 0.5 = none := (C61_nan demo_valid _ _).2 (Or.inl (by simp [demo, outside]; norm_num))

/-- a file with two energy bins, [1, 4] and [4, 9] keV -/
example : ∃ t, new "finke_2010" ⟨[1, 4], [4, 9], [0, 1], [[1, 1], [0.5, 0.25]]⟩ = some t
    ∧ t.absorption ⟨1, 1, 1, 1, 1, 1, 1, 1, 1, 1⟩ 1 6 1 = some 0.25 := by
  have e1 : √((1 : ℝ) * 4) = 2 := by rw [show (1 : ℝ) * 4 = 2 ^ 2 by norm_num]; exact Real.sqrt_sq (by norm_num)
  have e2 : √((4 : ℝ) * 9) = 6 := by rw [show (4 : ℝ) * 9 = 6 ^ 2 by norm_num]; exact Real.sqrt_sq (by norm_num)
  have hv : (load "finke_2010" ⟨[1, 4], [4, 9], [0, 1], [[1, 1], [0.5, 0.25]]⟩).Valid := by
    unfold load
    constructor <;> simp
    exact Real.lt_sqrt_of_sq_lt (by norm_num)
  have hn : new "finke_2010" ⟨[1, 4], [4, 9], [0, 1], [[1, 1], [0.5, 0.25]]⟩
      = some (load "finke_2010" ⟨[1, 4], [4, 9], [0, 1], [[1, 1], [0.5, 0.25]]⟩) := by
    unfold new
    rw [if_pos (by simp [models]), if_pos hv]
  exact ⟨_, hn, C61_file hn (i := 1) (j := 1) rfl rfl rfl rfl rfl (by simp) one_pos (by rw [e2]; norm_num)⟩

end Verif.EBL
