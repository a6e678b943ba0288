import Verif.Lemmas.Paths

/- Grids that are not the blob's own: successive points, and the correction of their ends by a distribution. -/

namespace Verif

open MathUtils Spectra

/-- successive points of `np.logspace(a, b, n)` differ at least by the factor `1 + 2 (b-a)/(n-1)` -/
theorem logspace_ratio {a b : ℝ} (hab : a ≤ b) {n : ℕ} (hn : 2 ≤ n) :
    (logspace a b n).IsChain fun x y => x * (1 + 2 * ((b - a) / ((n : ℝ) - 1))) ≤ y := by
  have hn' : (0 : ℝ) < n - 1 := by
    have : (2 : ℝ) ≤ n := by exact_mod_cast hn
    linarith
  have hba : 0 ≤ b - a := by linarith
  unfold logspace linspace
  rw [List.map_map, List.isChain_iff_getElem]
  intro i hi
  simp only [List.getElem_map, List.getElem_range, Function.comp_apply]
  have e : a + ((i + 1 : ℕ) : ℝ) * ((b - a) / ((n : ℝ) - 1))
      = (a + (i : ℝ) * ((b - a) / ((n : ℝ) - 1))) + (b - a) / ((n : ℝ) - 1) := by push_cast; ring
  rw [e]
  generalize a + (i : ℝ) * ((b - a) / ((n : ℝ) - 1)) = A
  rw [Real.rpow_add (by norm_num : (0 : ℝ) < 10)]
  exact mul_le_mul_of_nonneg_left (Absorption.ten_pow_ge (by positivity)) (by positivity)

theorem correctFirst_pos {l : List ℝ} (hp : ∀ x ∈ l, 0 < x) (a : ℝ) : ∀ x ∈ correctFirst a l, 0 < x := by
  rcases l with _ | ⟨g0, rest⟩
  · simp [correctFirst]
  · unfold correctFirst
    dsimp only
    split_ifs with hc
    · intro x hx
      rcases List.mem_cons.1 hx with rfl | hx
      · exact (hp g0 (by simp)).trans hc.1
      · exact hp x (List.mem_cons_of_mem _ hx)
    · exact hp

theorem correctFirst_chain {l : List ℝ} (hp : ∀ x ∈ l, 0 < x) (h : l.IsChain fun x y => x * (1 + 1 / 10 ^ 9) ≤ y)
    (a : ℝ) : (correctFirst a l).IsChain fun x y => x * (1 + 5 / 10 ^ 10) ≤ y := by
  have h' : l.IsChain fun x y => x * (1 + 5 / 10 ^ 10) ≤ y := by
    rw [List.isChain_iff_getElem] at h ⊢
    intro i hi
    have h1 := h i hi
    have h2 := hp _ (List.getElem_mem (by omega : i < l.length))
    linarith
  unfold correctFirst
  rcases l with _ | ⟨g0, _ | ⟨g1, rest⟩⟩
  · exact h'
  · dsimp only
    split_ifs <;> simp
  · dsimp only
    have h0 := hp g0 (by simp)
    split_ifs with hc
    · rw [List.isChain_cons_cons] at h h' ⊢
      refine ⟨?_, h'.2⟩
      have h2 := hc.2
      rw [div_lt_iff₀ h0] at h2
      have h3 := h.1
      nlinarith
    · exact h'

theorem correctLast_chain {l : List ℝ} (hp : ∀ x ∈ l, 0 < x) (h : l.IsChain fun x y => x * (1 + 5 / 10 ^ 10) ≤ y)
    {b : ℝ} (hb : 0 < b) : (correctLast b l).IsChain (· ≤ ·) := by
  have h' : l.IsChain (· ≤ ·) := by
    rw [List.isChain_iff_getElem] at h ⊢
    intro i hi
    have h1 := h i hi
    have h2 := hp _ (List.getElem_mem (by omega : i < l.length))
    linarith
  unfold correctLast
  rcases l with _ | ⟨g0, rest⟩
  · exact h'
  · dsimp only
    split_ifs with hc
    · have e := List.dropLast_append_getLast (List.cons_ne_nil g0 rest)
      rw [← e] at h h'
      rw [List.isChain_append] at h h' ⊢
      refine ⟨h'.1, by simp, ?_⟩
      intro x hx y hy
      have h1 := h.2.2 x hx ((g0 :: rest).getLast (List.cons_ne_nil _ _)) rfl
      have hy' : y = b := by simpa using hy.symm
      subst hy'
      have h2 := hc.2
      rw [div_lt_iff₀ hb] at h2
      have hx0 : 0 < x := hp x (List.mem_of_mem_dropLast (List.mem_of_mem_getLast? hx))
      by_contra hlt
      nlinarith [not_le.1 hlt]
    · exact h'

/-- evaluating a distribution on a fixed grid of the package keeps it increasing and positive -/
theorem afterCall_chain {d : Dist} (hb : 0 < d.gmax) {a b : ℝ} (hab : a < b) {n : ℕ} (hn : 2 ≤ n)
    (hn' : (n : ℝ) ≤ 2 * 10 ^ 9 * (b - a)) : (d.afterCall (logspace a b n)).IsChain (· ≤ ·) := by
  unfold Dist.afterCall
  split
  · exact logspace_chain hab hn
  · unfold correctBoundary
    have hp : ∀ x ∈ logspace a b n, 0 < x := logspace_pos
    have h1 : (0 : ℝ) < n - 1 := by
      have : (2 : ℝ) ≤ n := by exact_mod_cast hn
      linarith
    have hr : (logspace a b n).IsChain fun x y => x * (1 + 1 / 10 ^ 9) ≤ y := by
      have h := logspace_ratio hab.le hn
      rw [List.isChain_iff_getElem] at h ⊢
      intro i hi
      refine le_trans (mul_le_mul_of_nonneg_left ?_ (hp _ (List.getElem_mem (by omega))).le) (h i hi)
      have : (1 : ℝ) / 10 ^ 9 ≤ 2 * ((b - a) / ((n : ℝ) - 1)) := by
        rw [← mul_div_assoc, div_le_div_iff₀ (by norm_num) h1]
        linarith
      linarith
    exact correctLast_chain (correctFirst_pos hp _) (correctFirst_chain hp hr _) hb

theorem afterCall_pos_fixed {d : Dist} (hb : 0 < d.gmax) {a b : ℝ} {n : ℕ} :
    ∀ g ∈ d.afterCall (logspace a b n), 0 < g := by
  unfold Dist.afterCall
  split
  · exact logspace_pos
  · have hp : ∀ x ∈ logspace a b n, 0 < x := logspace_pos
    generalize logspace a b n = l at hp
    have h1 := correctFirst_pos hp d.gmin
    unfold correctBoundary
    generalize correctFirst d.gmin l = l' at h1 ⊢
    rcases l' with _ | ⟨g0, rest⟩
    · simp [correctLast]
    · unfold correctLast
      dsimp only
      split_ifs
      · intro g hg
        rcases List.mem_append.1 hg with hg | hg
        · exact h1 g (List.mem_of_mem_dropLast hg)
        · rw [List.mem_singleton.1 hg]; exact hb
      · exact h1

end Verif
