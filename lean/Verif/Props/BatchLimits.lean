import Verif.Props.BatchCompton
import Verif.Props.BatchTau
import Verif.Props.Synchrotron

/-
C100: where batches are not treated frequency by frequency, the energy loss rate of a batch of electrons, and cases
meeting the hypotheses.
-/

noncomputable section

namespace Verif.Batch

open MathUtils Spectra Geometry Kernels Region Targets

variable {k : Consts} {integ : List ℝ → List ℝ → ℝ} {z d_L δ B R_b mu_s r : ℝ} {d : Dist} {gamma mu phi : List ℝ}

/-! ### A batch of Lorentz factors -/

/-- an array with one axis against one with two: it is aligned with the last axis -/
theorem lift2_row {a b : Arr ℝ} {m n : ℕ} {F : List ℕ → ℝ} {G : List ℕ → ℝ} (op : ℝ → ℝ → ℝ) (ha : a.shape = [m, n])
    (sa : Seen [m, n] a F) (hb : b.shape = [n]) (sb : Seen [n] b G) :
    ∃ c, lift2 op a b = .ok c ∧ c.shape = [m, n] ∧ Seen [m, n] c fun i => op (F i) (G [i.getD 1 0]) := by
  refine ⟨⟨[m, n], fun idx => op (a.get (clamp a.shape idx)) (b.get (clamp b.shape idx))⟩, ?_, rfl, ?_⟩
  · unfold lift2 Arr.zip
    have : bshape a.shape b.shape = some [m, n] := by
      rw [ha, hb]; simp [bshape, pad, bshapeEq]
    rw [this]; rfl
  · refine seen_of_get rfl fun idx hi => ?_
    have h1 := sa.get idx hi
    rcases hi with _ | ⟨h0, _ | ⟨hj, _ | _⟩⟩
    rename_i i j
    have h2 := sb.get [j] (.cons hj .nil)
    have h3 : clamp b.shape [i, j] = clamp b.shape [j] := by simp [hb, clamp]
    simp only [h1, h3, h2]
    rfl

/-- C100: the energy loss rates of an array of Lorentz factors -/
theorem C100_energy_loss {b : Blob} (gs : List ℝ) :
    Pointwise (vec gs) (energyLossRate k b gs) (Compton.energyLossRate k b) := by
  set T := Compton.nuToIntegrate with hT
  clear_value T
  set e := T.map (nuToEps k · b.z b.delta_D) with he
  have hel : e.length = T.length := by simp [he]
  obtain ⟨sy, e1, h1, s1⟩ := synch_vec (k := k) (integ := trapz) (z := b.z) (d_L := b.d_L) (δ := b.delta_D) (B := b.B)
    (R_b := b.R_b) (d := b.n_e) (gamma := Compton.gammaToIntegrate) false T
  rw [← hel] at h1 s1
  obtain ⟨u, e2, s2, r2⟩ := seen_lift2 (fun e s => uPhSynchDiff k b.R_b b.d_L b.delta_D e s) (seen_vec e) s1
  have h2 : u.shape = [e.length] := by
    have := r2; simpa [ofNd, vec, h1, bshapeEq] using this.symm
  obtain ⟨f, e3, s3, r3⟩ := seen_lift2 (fun g e => Compton.fKN (4 * g * e)) (seen_20 gs e.length) (seen_21 gs.length e)
  have h3 : f.shape = [gs.length, e.length] := by
    have := r3; simpa [ofNd, bshapeEq] using this.symm
  obtain ⟨it, e4, h4, s4⟩ := lift2_row (· * ·) h3 s3 h2 s2
  have e5 : integrateLast it e = .ok ⟨[gs.length], fun idx =>
      trapz ((List.range e.length).map fun i => it.get (idx ++ [i])) e⟩ := by
    unfold integrateLast; rw [h4]; simp
  have s5 : Seen [gs.length] (⟨[gs.length], fun idx =>
      trapz ((List.range e.length).map fun i => it.get (idx ++ [i])) e⟩ : Arr ℝ) (fun i =>
      trapz (T.map fun nu => Compton.fKN (4 * gs.getD (i.getD 0 0) 0 * nuToEps k nu b.z b.delta_D)
        * Compton.uEpsilon k b nu) e) := by
    refine seen_of_get rfl fun idx hi => ?_
    rcases hi with _ | ⟨h0, _ | _⟩
    rename_i j
    refine congrArg (fun l => trapz l e) ?_
    apply List.ext_getElem
    · simp [hel]
    · intro i i1 i2
      have hi : i < e.length := by simpa using i1
      have hi' : i < T.length := by rw [← hel]; exact hi
      simp only [List.getElem_map, List.getElem_range]
      rw [show [j] ++ [i] = [j, i] from rfl, seen_full s4 h4 [j, i] (.cons h0 (.cons hi .nil))]
      simp [hi, hi', he, Compton.uEpsilon]
  obtain ⟨c, e6, s6, r6⟩ := seen_lift2 (fun F g => 4 / 3 * k.sigma_T * k.c * F * g ^ 2) s5 (seen_vec gs)
  have h6 : c.shape = [gs.length] := by
    have := r6; simpa [ofNd, vec, bshapeEq] using this.symm
  refine pointwise_vec (c := c) ?_ h6 s6 fun j hj => ?_
  · unfold energyLossRate
    simp only [← hT, ← he, bind, Except.bind, e1, e2, axes2_eq, e3, e4, e5, e6]
  · simp [Compton.energyLossRate, ← hT, ← he, hj]

/-! ### Delta approximation -/

/-- the Lorentz factor radiating at a frequency, synchrotron.py:217 -/
def gammaS (k : Consts) (z δ B nu : ℝ) : ℝ := √(nuToEps k nu z δ / Synchrotron.epsilonB B)

/-- C100, delta approximation: frequency by frequency when the ends of the array of Lorentz factors need no correction.
Missing: the ends (see `C100_delta_violated`). -/
theorem C100_delta_partial {nus : List ℝ} (h : NoCorrection d.gmin d.gmax (nus.map (gammaS k z δ B))) :
    sedFluxDelta k nus z d_L δ B R_b d = nus.map fun nu => Synchrotron.sedFluxDelta k nu z d_L δ B R_b d := by
  unfold sedFluxDelta
  have h1 : d.afterCall (nus.map fun nu => √(nuToEps k nu z δ / Synchrotron.epsilonB B))
      = nus.map fun nu => √(nuToEps k nu z δ / Synchrotron.epsilonB B) := (C29_unchanged_partial d h).1
  simp only [Dist.evaluate, h1, List.map_map, List.zipWith_map, List.zipWith_self]
  rfl

/-- C100 fails for the delta approximation: the flux at a frequency just below the one of `gamma_min` depends on its
place in the array -/
theorem C100_delta_violated (hp : k.Pos) {nu : ℝ} (hnu : 0 < nu) (hz : 0 ≤ z) (hd : 0 < d_L) (hδ : 0 < δ) (hB : 0 < B)
    (hR : 0 < R_b) :
    ∃ (d : Dist) (nu' : ℝ), d.Positive ∧ 0 < (sedFluxDelta k [nu] z d_L δ B R_b d).getD 0 0
      ∧ (sedFluxDelta k [nu', nu] z d_L δ B R_b d).getD 1 0 = 0 := by
  set g := gammaS k z δ B nu with hg
  have hgp : 0 < g := by
    have h1 := hp.h; have h2 := hp.m_e; have h3 := hp.c
    apply Real.sqrt_pos.2
    unfold nuToEps Synchrotron.epsilonB Consts.mec2 Synchrotron.B_cr
    positivity
  set a := g * (1 + 1 / 10 ^ 11) with ha
  have hag : g < a := by rw [ha]; nlinarith
  have hab : a < 2 * g := by rw [ha]; nlinarith
  have hrel : (a - g) / g < 1 / 10 ^ 10 := by
    rw [div_lt_iff₀ hgp, ha]; nlinarith
  have hap : 0 < a := hgp.trans hag
  have hgg : √(nuToEps k nu z δ / Synchrotron.epsilonB B) = g := rfl
  refine ⟨.powerLaw 1 2 a (2 * g), 4 * nu, ?_, ?_, ?_⟩
  · exact ⟨one_pos, hap⟩
  · have h1 : (Dist.powerLaw 1 2 a (2 * g)).afterCall [g] = [a] := by
      have h2 : ¬ a > 2 * g := by linarith
      have h5 : correctFirst a [g] = [a] := if_pos ⟨hag, hrel⟩
      have h6 : correctLast (2 * g) [a] = [a] := if_neg fun h => h2 h.1
      show correctLast (2 * g) (correctFirst a [g]) = [a]
      rw [h5, h6]
    simp only [sedFluxDelta, List.map_cons, List.map_nil, hgg, Dist.evaluate, h1, List.zipWith_cons_cons,
      List.zipWith_nil_left, List.getD_cons_zero]
    have h3 : (Dist.powerLaw 1 2 a (2 * g)).call a = a ^ (-2 : ℝ) := by
      simp [Dist.call, powerLawAt, InBounds, hab.le]
    rw [h3]
    have := hp.c; have := hp.sigma_T
    unfold Synchrotron.volume
    positivity
  · have h4 : √(nuToEps k (4 * nu) z δ / Synchrotron.epsilonB B) = 2 * g := by
      rw [← hgg, show nuToEps k (4 * nu) z δ / Synchrotron.epsilonB B
        = 2 ^ 2 * (nuToEps k nu z δ / Synchrotron.epsilonB B) by unfold nuToEps; ring,
        Real.sqrt_mul (by norm_num), Real.sqrt_sq (by norm_num)]
    have h1 : (Dist.powerLaw 1 2 a (2 * g)).afterCall [2 * g, g] = [2 * g, g] := by
      have h2 : ¬ a > 2 * g := by linarith
      have h3 : ¬ g > 2 * g := by linarith
      have h5 : correctFirst a [2 * g, g] = [2 * g, g] := if_neg fun h => h2 h.1
      have h6 : correctLast (2 * g) [2 * g, g] = [2 * g, g] := if_neg fun h => h3 h.1
      show correctLast (2 * g) (correctFirst a [2 * g, g]) = [2 * g, g]
      rw [h5, h6]
    simp only [sedFluxDelta, List.map_cons, List.map_nil, hgg, h4, Dist.evaluate, h1, List.zipWith_cons_cons,
      List.zipWith_nil_left]
    have h5 : (Dist.powerLaw 1 2 a (2 * g)).call g = 0 := by
      simp [Dist.call, powerLawAt, InBounds, hag]
    simp [h5]

/-! ### Other shapes -/

/-- C100 fails with self-absorption for a single number: the SED is refused although it is computed without
self-absorption -/
theorem C100_scalar_violated (x : ℝ) :
    sedFlux k integ true ⟨[], [x]⟩ z d_L δ B R_b d gamma = .error .shapeError
      ∧ ∃ c, sedFlux k integ false ⟨[], [x]⟩ z d_L δ B R_b d gamma = .ok (c, d.afterCall gamma)
        ∧ c.get [] = Synchrotron.sedFlux k integ false x z d_L δ B R_b d gamma := by
  obtain ⟨c, e, c', hc, hs, hp⟩ := thin_any (k := k) (integ := integ) (z := z) (d_L := d_L) (δ := δ) (B := B)
    (R_b := R_b) (d := d) (gamma := gamma) ⟨[], [x]⟩ (by simp)
  obtain rfl := Except.ok.inj hc
  refine ⟨?_, c, ?_, hp [] x (by simp [NdArray.get?, offset])⟩
  · -- the optical depth has one axis
    have ht : ∃ t, tauSSA k integ ⟨[], [x]⟩ z δ B R_b d (d.afterCall gamma)
        = .ok (t, d.afterSSA (d.afterCall gamma)) ∧ t.shape = [1] := by
      set g := d.afterCall gamma
      have hl : (d.afterSSA g).length = g.length := afterSSA_length d g
      obtain ⟨pw, it, em, e1, e2, e3, h3, s3⟩ := synch_core (integ := integ)
        (fun e g => Synchrotron.power k B e g k.m_e) [nuToEps k x z δ] (w := List.zipWith d.ssaElem g (d.afterSSA g))
        (g := d.afterSSA g) (by simp [hl]) rfl (seen_weights (by simp [hl]) _)
      rw [hl] at e1 e2
      have e4 : ∀ op : ℝ → ℝ → ℝ, ∃ c, lift2 op (ofNd ⟨[], [nuToEps k x z δ]⟩) em = .ok c ∧ c.shape = [1] := by
        intro op
        unfold lift2 Arr.zip
        have : bshape (ofNd ⟨[], [nuToEps k x z δ]⟩).shape em.shape = some [1] := by
          rw [h3]; simp [ofNd, bshape, pad, bshapeEq]
        rw [this]
        exact ⟨_, rfl, rfl⟩
      obtain ⟨c, e4, h4⟩ := e4 fun e j => -1 / (8 * Real.pi * k.m_e * e ^ 2) * (k.lambda_c_e / k.c) ^ 3 * j
      refine ⟨c.map fun x => 2 * x * R_b, ?_, h4⟩
      unfold tauSSA
      simp only [mapNd, List.map_cons, List.map_nil, axes2_eq, ssaNd_axis d g g.length (rest := [1]) (by simp), bind,
        Except.bind, Dist.ssaIntegrand, e1, e2, e3, e4]
    obtain ⟨t, et, hts⟩ := ht
    unfold sedFlux
    rw [e]
    simp only [bind, Except.bind, if_true, et]
    have hi : imul c (t.map Synchrotron.tauToAttenuation) = .error .shapeError := by
      unfold imul lift2 Arr.zip
      have : bshape c.shape (t.map Synchrotron.tauToAttenuation).shape = some [1] := by
        rw [hs]; show bshape [] t.shape = _; rw [hts]; simp [bshape, pad, bshapeEq]
      rw [this]
      simp [bind, Except.bind, Arr.map, hs]
    rw [hi]
  · unfold sedFlux; rw [e]; rfl

/-- C100 fails for external Compton and a column of frequencies: the result is a square whose diagonal holds the SED -/
theorem C100_column_violated {epsilon_0 L_0 : ℝ} (nus : List ℝ) :
    ∃ c, psBehindJet k integ ⟨[nus.length, 1], nus⟩ z d_L δ mu_s R_b epsilon_0 L_0 r d gamma = .ok c
      ∧ c.shape = [nus.length, nus.length]
      ∧ (∀ i (h : i < nus.length), c.get [i, i]
        = Compton.psBehindJet k integ nus[i] z d_L δ mu_s R_b epsilon_0 L_0 r d gamma)
      ∧ (nus.length ≠ 1 → ∀ f, ¬ Pointwise ⟨[nus.length, 1], nus⟩ (.ok c) f) := by
  set eps := nus.map (nuToEps k · z 1) with heps
  have hm : (mapNd (nuToEps k · z 1) ⟨[nus.length, 1], nus⟩).data = eps := rfl
  obtain ⟨K, e1, s1, r1⟩ := seen_lift2 (fun g e => comptonKernel g e epsilon_0 mu_s 1 0) (seen_20 gamma eps.length)
    (seen_21 gamma.length eps)
  obtain ⟨it, e2, s2, r2⟩ := seen_lift3 (fun n g K => n / g ^ 2 * K)
    (seen_boosted2 (d := d) (R_b := R_b) (δ := δ) gamma eps.length) (seen_20 gamma eps.length) s1
  have hK : K.shape = [gamma.length, eps.length] := by
    have := r1; simpa [ofNd, bshapeEq] using this.symm
  have hi : it.shape = [gamma.length, eps.length] := by
    have := r2; simpa [ofNd, Arr.map, hK, bshapeEq] using this.symm
  obtain ⟨a, e3, h3, s3⟩ := core2 (integ := integ)
    (fun N g e => N / g ^ 2 * comptonKernel g e epsilon_0 mu_s 1 0) hi (boostedN_length (d := d) (R_b := R_b) (δ := δ)) s2
  have hl : eps.length = nus.length := by simp [heps]
  rw [hl] at h3 s3
  have hv : mapNd (nuToEps k · z 1) ⟨[nus.length, 1], nus⟩ = ⟨[eps.length, 1], eps⟩ := by simp [mapNd, heps]
  have key : ∀ op : ℝ → ℝ → ℝ, ∃ c, lift2 op (ofNd ⟨[eps.length, 1], eps⟩) a = .ok c
      ∧ c.shape = [nus.length, nus.length] ∧ ∀ i, i < nus.length → c.get [i, i]
        = op (eps.getD i 0) (a.get [i]) := by
    intro op
    have hb : bshape (ofNd ⟨[eps.length, 1], eps⟩).shape a.shape = some [nus.length, nus.length] := by
      rw [h3, hl]; simp [ofNd, bshape, pad, bshapeEq]
    unfold lift2 Arr.zip
    rw [hb]
    refine ⟨_, rfl, rfl, fun i hi => ?_⟩
    have hie : i < eps.length := by omega
    have g1 := (seen_20 eps nus.length).get [i, i] (.cons hie (.cons hi .nil))
    have g2 := clamp_self (s := a.shape) (idx := [i]) (by rw [h3]; exact .cons hi .nil)
    have g3 : clamp a.shape [i, i] = [i] := by
      rw [show clamp a.shape [i, i] = clamp a.shape [i] by simp [h3, clamp], g2]
    simp only [Arr.map, g3, g1]
    rfl
  obtain ⟨c, e4, h4, g4⟩ := key fun e j => 3 * k.sigma_T * L_0 * e ^ 2 * δ ^ 3
    / (2 ^ 7 * Real.pi ^ 2 * d_L ^ 2 * r ^ 2 * epsilon_0 ^ 2) * j
  refine ⟨c, ?_, h4, fun i hi => ?_, fun h f => ?_⟩
  · unfold psBehindJet
    simp only [hv, axes2_eq, boosted_eq (rest := [1]) (by simp), bind, Except.bind, e1, e2, e3, e4]
  · rw [g4 i hi, seen_full s3 h3 [i] (.cons hi .nil)]
    simp [Compton.psBehindJet, Compton.fold, heps, hi]
  · rintro ⟨c', hc, hs, -⟩
    obtain rfl := Except.ok.inj hc
    rw [h4] at hs
    simp at hs
    exact h hs

/-! ### Cases meeting the hypotheses -/

/-- a two by two array of frequencies -/
example : ∃ c, sedFlux k trapz false ⟨[2, 2], [1, 2, 3, 4]⟩ z d_L δ B R_b d gamma = .ok (c, d.afterCall gamma)
    ∧ c.get [1, 0] = Synchrotron.sedFlux k trapz false 3 z d_L δ B R_b d gamma := by
  obtain ⟨c, e, c', hc, -, h⟩ := C100_synchrotron (k := k) (integ := trapz) (z := z) (d_L := d_L) (δ := δ) (B := B)
    (R_b := R_b) (d := d) (gamma := gamma) ⟨[2, 2], [1, 2, 3, 4]⟩ (by simp)
  obtain rfl := Except.ok.inj hc
  exact ⟨c, e, h [1, 0] 3 (by simp [NdArray.get?, offset])⟩

/-- three frequencies at once and one alone -/
example {a b c : ℝ} : ∃ x y, blr k trapz (vec [a, b, c]) z d_L δ mu_s R_b 1 1 1 1 r d gamma mu phi = .ok x
    ∧ blr k trapz (vec [b]) z d_L δ mu_s R_b 1 1 1 1 r d gamma mu phi = .ok y ∧ x.get [1] = y.get [0] := by
  obtain ⟨x, e1, -, h1⟩ := C100_blr (k := k) (integ := trapz) (z := z) (d_L := d_L) (δ := δ) (mu_s := mu_s) (R_b := R_b)
    (r := r) (d := d) (gamma := gamma) (mu := mu) (phi := phi) (L_disk := 1) (xi_line := 1) (epsilon_line := 1)
    (R_line := 1) [a, b, c]
  obtain ⟨y, e2, -, h2⟩ := C100_blr (k := k) (integ := trapz) (z := z) (d_L := d_L) (δ := δ) (mu_s := mu_s) (R_b := R_b)
    (r := r) (d := d) (gamma := gamma) (mu := mu) (phi := phi) (L_disk := 1) (xi_line := 1) (epsilon_line := 1)
    (R_line := 1) [b]
  exact ⟨x, y, e1, e2, by
    rw [h1 [1] b (by simp [vec, NdArray.get?, offset]), h2 [0] b (by simp [vec, NdArray.get?, offset])]⟩

/-- the delta approximation of two frequencies inside the limits -/
example : NoCorrection (Dist.powerLaw 1 2 10 1000).gmin (Dist.powerLaw 1 2 10 1000).gmax [20, 30] := by
  constructor <;> intro g hg <;> left <;> simp at hg <;> subst hg <;> norm_num [Dist.gmin, Dist.gmax]

end Verif.Batch

end
