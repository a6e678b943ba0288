import Mathlib.Analysis.SpecialFunctions.Pow.Continuity
import Verif.Props.Synchrotron

/-
C79: the shape of the synchrotron spectrum.  Far below the critical frequencies of all electrons the flux density
grows like the cubic root of the frequency, far above them it is cut off exponentially.
-/

noncomputable section

namespace Verif.Synchrotron

open MathUtils Spectra Region Filter Topology

/-- the kernel is cut off exponentially -/
theorem R_le {x : ℝ} (hx : 0 ≤ x) : R x ≤ 2 * Real.exp (-x) := by
  unfold R
  dsimp only
  have h1 : (x ^ (1 / 3 : ℝ)) ^ 2 = x ^ (2 / 3 : ℝ) := by
    rw [← Real.rpow_natCast, ← Real.rpow_mul hx]; norm_num
  have h2 : x ^ (4 / 3 : ℝ) = (x ^ (2 / 3 : ℝ)) ^ 2 := by
    rw [← Real.rpow_natCast, ← Real.rpow_mul hx]; norm_num
  rw [h2, ← h1]
  generalize ht : x ^ (1 / 3 : ℝ) = t
  have ht0 : 0 ≤ t := by rw [← ht]; exact Real.rpow_nonneg hx _
  have hs : 0 < √(1 + 34 / 10 * t ^ 2) := Real.sqrt_pos.2 (by positivity)
  have ha : 1808 / 1000 * t / √(1 + 34 / 10 * t ^ 2) ≤ 1 := by
    rw [div_le_one hs]
    refine Real.le_sqrt_of_sq_le ?_
    nlinarith [sq_nonneg t]
  have hb : (1 + 221 / 100 * t ^ 2 + 347 / 1000 * (t ^ 2) ^ 2) / (1 + 1353 / 1000 * t ^ 2 + 217 / 1000 * (t ^ 2) ^ 2) ≤ 2 := by
    rw [div_le_iff₀ (by positivity)]
    nlinarith [sq_nonneg t, sq_nonneg (t ^ 2)]
  rw [mul_div_assoc]
  refine mul_le_mul_of_nonneg_right ?_ (Real.exp_pos _).le
  calc _ ≤ 1 * (2 : ℝ) := mul_le_mul ha hb (by positivity) (by norm_num)
    _ = 2 := by norm_num

/-- the kernel starts like the cubic root -/
theorem R_low : Tendsto (fun x => R x / x ^ (1 / 3 : ℝ)) (𝓝[>] 0) (𝓝 (1808 / 1000)) := by
  have hc : ContinuousAt (fun x : ℝ => 1808 / 1000 / √(1 + 34 / 10 * x ^ (2 / 3 : ℝ))
      * (1 + 221 / 100 * x ^ (2 / 3 : ℝ) + 347 / 1000 * x ^ (4 / 3 : ℝ))
      / (1 + 1353 / 1000 * x ^ (2 / 3 : ℝ) + 217 / 1000 * x ^ (4 / 3 : ℝ)) * Real.exp (-x)) 0 := by
    have c2 : ContinuousAt (fun x : ℝ => x ^ (2 / 3 : ℝ)) 0 := Real.continuousAt_rpow_const _ _ (Or.inr (by norm_num))
    have c4 : ContinuousAt (fun x : ℝ => x ^ (4 / 3 : ℝ)) 0 := Real.continuousAt_rpow_const _ _ (Or.inr (by norm_num))
    have z2 : (0 : ℝ) ^ (2 / 3 : ℝ) = 0 := Real.zero_rpow (by norm_num)
    have z4 : (0 : ℝ) ^ (4 / 3 : ℝ) = 0 := Real.zero_rpow (by norm_num)
    refine ContinuousAt.mul (ContinuousAt.div (ContinuousAt.mul (ContinuousAt.div continuousAt_const ?_ ?_) ?_) ?_ ?_)
      (by fun_prop)
    · exact (continuousAt_const.add (continuousAt_const.mul c2)).sqrt
    · rw [z2]; norm_num
    · exact (continuousAt_const.add (continuousAt_const.mul c2)).add (continuousAt_const.mul c4)
    · exact (continuousAt_const.add (continuousAt_const.mul c2)).add (continuousAt_const.mul c4)
    · rw [z2, z4]; norm_num
  have h := hc.tendsto.mono_left (nhdsWithin_le_nhds (s := Set.Ioi 0))
  have z2 : (0 : ℝ) ^ (2 / 3 : ℝ) = 0 := Real.zero_rpow (by norm_num)
  have z4 : (0 : ℝ) ^ (4 / 3 : ℝ) = 0 := Real.zero_rpow (by norm_num)
  rw [z2, z4] at h
  norm_num at h
  norm_num
  refine h.congr' ?_
  filter_upwards [self_mem_nhdsWithin] with x hx
  have hx' : (0 : ℝ) < x ^ (1 / 3 : ℝ) := Real.rpow_pos_of_pos hx _
  unfold R
  norm_num at hx' ⊢
  field_simp

/-- a sum over a grid passes to the limit -/
theorem over_trapz_tendsto {α : Type} {F : Filter α} {f : α → ℝ → ℝ} {g : ℝ → ℝ} (grid : List ℝ)
    (h : ∀ x ∈ grid, Tendsto (f · x) F (𝓝 (g x))) :
    Tendsto (fun a => over trapz grid (f a)) F (𝓝 (over trapz grid g)) := by
  unfold over
  induction grid with
  | nil => simpa [trapz] using tendsto_const_nhds
  | cons x l ih =>
    cases l with
    | nil => simpa [trapz] using tendsto_const_nhds
    | cons y l =>
      have ih' := ih (fun z hz => h z (List.mem_cons_of_mem _ hz))
      simp only [List.map_cons, trapz] at ih' ⊢
      exact ((tendsto_const_nhds.mul ((h x (by simp)).add (h y (by simp)))).div_const _).add ih'

theorem over_trapz_mul (grid : List ℝ) (c : ℝ) (f : ℝ → ℝ) :
    (over trapz grid fun x => c * f x) = c * over trapz grid f := by
  unfold over
  rw [← C33_trapz_scale, List.map_map]
  rfl

theorem good_mem {b : Blob} (h : b.GoodGrid) {g : ℝ} (hg : g ∈ b.gamma_e) : 0 < g ∧ g ≤ b.n_e.gmax := by
  refine ⟨Blob.gamma_e_pos b g hg, ?_⟩
  obtain ⟨mid, hm⟩ := h.ends
  have hp := h.pairwise
  rw [hm] at hp hg
  rw [← List.cons_append] at hp hg
  rcases List.mem_append.1 hg with h1 | h1
  · exact ((List.pairwise_append.1 hp).2.2 g h1 _ (by simp)).le
  · exact (List.mem_singleton.1 h1).le

/-- exponent of the cut-off: photon energy over critical energy of the fastest electrons, 4 pi epsilon m_e^2 c^3
over 3 e B h gamma_max^2 -/
def cutoffExponent (k : Consts) (B epsilon gamma_max : ℝ) : ℝ :=
  4 * Real.pi * epsilon * k.m_e ^ 2 * k.c ^ 3 / (3 * k.e * B * k.h * gamma_max ^ 2)

/-- **C79**, high frequencies: with or without self-absorption the SED is at most the number of electrons times
the largest power per unit energy of one of them, cut off exponentially at the critical frequency of the fastest
electrons. -/
theorem C79_cutoff {k : Consts} {nu : ℝ} {b : Blob} (hg : b.GoodGrid)
    (hp : Physical k nu b.z b.d_L b.delta_D b.B b.R_b b.n_e) (ssa : Bool) :
    sedFlux k trapz ssa nu b.z b.d_L b.delta_D b.B b.R_b b.n_e b.gamma_e
      ≤ b.delta_D ^ 4 / (4 * Real.pi * b.d_L ^ 2) * nuToEps k nu b.z b.delta_D * (√3 * k.e ^ 3 * b.B / k.h)
        * (over trapz b.gamma_e fun g => 4 / 3 * Real.pi * b.R_b ^ 3 * b.n_e.call g)
        * (2 * Real.exp (-cutoffExponent k b.B (nuToEps k nu b.z b.delta_D) b.n_e.gmax)) := by
  have he := nuToEps_pos hp.consts hp.nu hp.z hp.delta
  have hch := hg.chain
  have hthin : sedFlux k trapz ssa nu b.z b.d_L b.delta_D b.B b.R_b b.n_e b.gamma_e
      ≤ sedThin k trapz nu b.z b.d_L b.delta_D b.B b.R_b b.n_e b.gamma_e := by
    cases ssa
    · exact le_of_eq (by unfold sedFlux; rfl)
    · refine le_trans (C52_blob hg hp nonneg_trapz) (le_of_eq (by unfold sedFlux; rfl))
  refine hthin.trans ?_
  rw [sedThin_eq, hg.afterCall]
  have hd := hp.delta
  have hdl := hp.d_L
  have hk := hp.consts
  have hpre : 0 ≤ b.delta_D ^ 4 / (4 * Real.pi * b.d_L ^ 2) * nuToEps k nu b.z b.delta_D := by positivity
  have hint : (over trapz b.gamma_e fun g =>
        volume b.R_b * b.n_e.call g * power k b.B (nuToEps k nu b.z b.delta_D) g k.m_e)
      ≤ over trapz b.gamma_e fun g => (√3 * k.e ^ 3 * b.B / k.h
        * (2 * Real.exp (-cutoffExponent k b.B (nuToEps k nu b.z b.delta_D) b.n_e.gmax)))
          * (4 / 3 * Real.pi * b.R_b ^ 3 * b.n_e.call g) := by
    refine C33_trapz_mono _ _ _ hch (fun g hgm => ?_)
    have hgp : 0 < g := (good_mem hg hgm).1
    have hgx : g ≤ b.n_e.gmax := (good_mem hg hgm).2
    have hv : 0 ≤ volume b.R_b * b.n_e.call g :=
      mul_nonneg (by unfold volume; have := hp.R_b; positivity) (C23_nonneg hp.dist g)
    have hB := hp.B
    have hke := hk.e
    have hkh := hk.h
    have hkc := hk.c
    have hkm := hk.m_e
    have hx0 := calcX_nonneg (m := k.m_e) hk hB he.le g
    have hx : cutoffExponent k b.B (nuToEps k nu b.z b.delta_D) b.n_e.gmax
        ≤ calcX k b.B (nuToEps k nu b.z b.delta_D) g k.m_e := by
      unfold cutoffExponent calcX
      have : 0 < g ^ 2 := by positivity
      gcongr
    have hR : R (calcX k b.B (nuToEps k nu b.z b.delta_D) g k.m_e)
        ≤ 2 * Real.exp (-cutoffExponent k b.B (nuToEps k nu b.z b.delta_D) b.n_e.gmax) :=
      (R_le hx0).trans (by
        have := Real.exp_le_exp.2 (neg_le_neg hx)
        linarith)
    unfold power
    dsimp only
    have hpw : 0 ≤ √3 * k.e ^ 3 * b.B / k.h := by positivity
    calc volume b.R_b * b.n_e.call g * (√3 * k.e ^ 3 * b.B / k.h * R (calcX k b.B (nuToEps k nu b.z b.delta_D) g k.m_e))
        ≤ volume b.R_b * b.n_e.call g * (√3 * k.e ^ 3 * b.B / k.h
          * (2 * Real.exp (-cutoffExponent k b.B (nuToEps k nu b.z b.delta_D) b.n_e.gmax))) :=
          mul_le_mul_of_nonneg_left (mul_le_mul_of_nonneg_left hR hpw) hv
      _ = _ := by unfold volume; ring
  refine (mul_le_mul_of_nonneg_left hint hpre).trans (le_of_eq ?_)
  rw [over_trapz_mul]
  ring

/-- **C79**, low frequencies: without self-absorption the SED (frequency times flux density) grows like
frequency^(4/3), with a positive limiting ratio: the flux density like the cubic root of the frequency. -/
theorem C79_low {k : Consts} {b : Blob} (hg : b.GoodGrid) (hn : b.n_e.NonEmpty)
    (hp : Physical k 1 b.z b.d_L b.delta_D b.B b.R_b b.n_e) :
    ∃ L > 0, Tendsto (fun nu => sedFlux k trapz false nu b.z b.d_L b.delta_D b.B b.R_b b.n_e b.gamma_e
      / nu ^ (4 / 3 : ℝ)) (𝓝[>] 0) (𝓝 L) := by
  have hk := hp.consts
  have hB := hp.B
  have hd := hp.delta
  have hdl := hp.d_L
  have hz := hp.z
  have hke := hk.e
  have hkh := hk.h
  have hkc := hk.c
  have hkm := hk.m_e
  have hkap := nuToEps_pos hk hp.nu hp.z hp.delta
  generalize hkap' : nuToEps k 1 b.z b.delta_D = κ at hkap
  have hnu : ∀ nu, nuToEps k nu b.z b.delta_D = κ * nu := by
    intro nu
    rw [← hkap']
    unfold nuToEps
    ring
  set C : ℝ → ℝ := fun g => calcX k b.B κ g k.m_e with hC
  have hCp : ∀ g, 0 < g → 0 < C g := fun g h => calcX_pos hk hB hkap hkm h
  have hCx : ∀ nu g, calcX k b.B (κ * nu) g k.m_e = C g * nu := by
    intro nu g
    rw [hC]
    unfold calcX
    ring
  set lim : ℝ → ℝ := fun g => volume b.R_b * b.n_e.call g
    * (√3 * k.e ^ 3 * b.B / k.h * (1808 / 1000 * (C g) ^ (1 / 3 : ℝ))) with hlim
  refine ⟨b.delta_D ^ 4 / (4 * Real.pi * b.d_L ^ 2) * κ * over trapz b.gamma_e lim, ?_, ?_⟩
  · have hch : b.gamma_e.IsChain (· < ·) := List.isChain_iff_pairwise.2 hg.pairwise
    have hv : 0 < volume b.R_b := by unfold volume; have := hp.R_b; positivity
    have hpw : 0 < √3 * k.e ^ 3 * b.B / k.h := by positivity
    have hi : 0 < over trapz b.gamma_e lim := by
      have hmem : ∀ g ∈ b.gamma_e, 0 < g := fun g h => (good_mem hg h).1
      obtain ⟨mid, hm⟩ := hg.ends
      rw [hm] at hch hmem ⊢
      unfold over
      rw [List.map_cons]
      apply trapz_pos (by simp) (by simp) hch
      · exact mul_pos (mul_pos hv (C23_inside hp.dist hn le_rfl hg.lt.le))
          (mul_pos hpw (mul_pos (by norm_num) (Real.rpow_pos_of_pos (hCp _ hg.pos) _)))
      · intro v hvm
        obtain ⟨g, hgm, rfl⟩ := List.mem_map.1 hvm
        have hgp := hmem g (List.mem_cons_of_mem _ hgm)
        exact mul_nonneg (mul_nonneg hv.le (C23_nonneg hp.dist g))
          (mul_nonneg hpw.le (mul_nonneg (by norm_num) (Real.rpow_nonneg (hCp g hgp).le _)))
    positivity
  · have key : Tendsto (fun nu => over trapz b.gamma_e fun g => volume b.R_b * b.n_e.call g
        * (√3 * k.e ^ 3 * b.B / k.h * (R (C g * nu) / (C g * nu) ^ (1 / 3 : ℝ) * (C g) ^ (1 / 3 : ℝ)))) (𝓝[>] 0)
        (𝓝 (over trapz b.gamma_e lim)) := by
      refine over_trapz_tendsto _ (fun g hgm => ?_)
      have hc := hCp g (good_mem hg hgm).1
      have hin : Tendsto (fun nu : ℝ => C g * nu) (𝓝[>] 0) (𝓝[>] 0) := by
        refine tendsto_nhdsWithin_iff.2 ⟨?_, ?_⟩
        · have : Tendsto (fun nu : ℝ => C g * nu) (𝓝 0) (𝓝 (C g * 0)) := (continuous_const.mul continuous_id).tendsto 0
          rw [mul_zero] at this
          exact this.mono_left nhdsWithin_le_nhds
        · filter_upwards [self_mem_nhdsWithin] with nu hnu
          exact mul_pos hc hnu
      exact ((((R_low.comp hin).mul_const _).const_mul _).const_mul _)
    refine (key.const_mul (b.delta_D ^ 4 / (4 * Real.pi * b.d_L ^ 2) * κ)).congr' ?_
    filter_upwards [self_mem_nhdsWithin] with nu hnu0
    have hnu0' : (0 : ℝ) < nu := hnu0
    have hsed : sedFlux k trapz false nu b.z b.d_L b.delta_D b.B b.R_b b.n_e b.gamma_e
        = sedThin k trapz nu b.z b.d_L b.delta_D b.B b.R_b b.n_e b.gamma_e := by unfold sedFlux; rfl
    rw [hsed, sedThin_eq, hg.afterCall, hnu]
    have h13 : (0 : ℝ) < nu ^ (1 / 3 : ℝ) := Real.rpow_pos_of_pos hnu0' _
    have h43 : nu ^ (4 / 3 : ℝ) = nu * nu ^ (1 / 3 : ℝ) := by
      rw [show (4 / 3 : ℝ) = 1 + 1 / 3 by norm_num, Real.rpow_add hnu0', Real.rpow_one]
    have hin : (over trapz b.gamma_e fun g => volume b.R_b * b.n_e.call g
        * (√3 * k.e ^ 3 * b.B / k.h * (R (C g * nu) / (C g * nu) ^ (1 / 3 : ℝ) * (C g) ^ (1 / 3 : ℝ))))
        = 1 / nu ^ (1 / 3 : ℝ) * over trapz b.gamma_e fun g => volume b.R_b * b.n_e.call g * power k b.B (κ * nu) g k.m_e := by
      rw [← over_trapz_mul]
      unfold over
      congr 1
      refine List.map_congr_left (fun g hgm => ?_)
      have hc := hCp g (good_mem hg hgm).1
      have hc13 : (0 : ℝ) < (C g) ^ (1 / 3 : ℝ) := Real.rpow_pos_of_pos hc _
      unfold power
      dsimp only
      rw [hCx, Real.mul_rpow hc.le hnu0'.le]
      field_simp
    rw [hin, h43]
    field_simp

/-- hypotheses met by `demoBlob` -/
example : ∃ L > 0, Tendsto (fun nu => sedFlux ⟨1, 1, 1, 1, 1, 1, 1, 1, 1, 1⟩ trapz false nu demoBlob.z demoBlob.d_L
    demoBlob.delta_D demoBlob.B demoBlob.R_b demoBlob.n_e demoBlob.gamma_e / nu ^ (4 / 3 : ℝ)) (𝓝[>] 0) (𝓝 L) :=
  C79_low demoBlob_good (by simp [demoBlob, Dist.NonEmpty]) demoPhysical

end Verif.Synchrotron

end
