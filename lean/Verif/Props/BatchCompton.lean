import Verif.Props.Batch

/-
C100 for the inverse Compton SEDs: external photon fields and synchrotron self-Compton.
-/

noncomputable section

namespace Verif.Batch

open MathUtils Spectra Geometry Kernels Region Targets

variable {k : Consts} {integ : List ℝ → List ℝ → ℝ} {z d_L δ B R_b mu_s r : ℝ} {d : Dist} {gamma mu phi : List ℝ}

/-- C100: isotropic monochromatic photon field -/
theorem C100_iso {epsilon_0 u_0 : ℝ} (nus : List ℝ) :
    Pointwise (vec nus) (isoMono k integ (vec nus) z d_L δ mu_s R_b epsilon_0 u_0 d gamma mu phi)
      fun x => Compton.isoMono k integ x z d_L δ mu_s R_b epsilon_0 u_0 d gamma mu phi := by
  set eps := nus.map (nuToEps k · z 1) with heps
  have hm : (mapNd (nuToEps k · z 1) (vec nus)).data = eps := rfl
  have sg := seen_40 gamma mu.length phi.length eps.length
  have sm := seen_41 gamma.length mu phi.length eps.length
  have sp := seen_42 gamma.length mu.length phi eps.length
  have se := seen_43 gamma.length mu.length phi.length eps
  obtain ⟨K, e1, s1, r1⟩ := seen_lift4 (fun g e m p => comptonKernel g e epsilon_0 mu_s m p) sg se sm sp
  obtain ⟨it, e2, s2, r2⟩ := seen_lift3 (fun n g K => n / g ^ 2 * K)
    (seen_boosted4 (d := d) (R_b := R_b) (δ := δ) gamma mu.length phi.length eps.length) sg s1
  have hK : K.shape = [gamma.length, mu.length, phi.length, eps.length] := by
    have := r1; simpa [ofNd, bshapeEq] using this.symm
  have hi : it.shape = [gamma.length, mu.length, phi.length, eps.length] := by
    have := r2; simpa [ofNd, Arr.map, hK, bshapeEq] using this.symm
  obtain ⟨a, b, c, e3, e4, e5, h5, s5⟩ := core4 (integ := integ) (integ' := trapz) (integ'' := trapz)
    (fun N g m p e => N / g ^ 2 * comptonKernel g e epsilon_0 mu_s m p) hi
    (boostedN_length (d := d) (R_b := R_b) (δ := δ)) s2
  unfold isoMono
  simp only [hm, axes4_eq, boosted_eq (rest := [1, 1, 1]) (by simp), bind, Except.bind, e1, e2, e3, e4, e5]
  rw [show eps.length = nus.length by simp [heps]] at h5 s5
  refine finish _ h5 s5 fun j hj => ?_
  simp [Compton.isoMono, Compton.fold, heps, hj]

/-- C100: broad line region -/
theorem C100_blr {L_disk xi_line epsilon_line R_line : ℝ} (nus : List ℝ) :
    Pointwise (vec nus) (blr k integ (vec nus) z d_L δ mu_s R_b L_disk xi_line epsilon_line R_line r d gamma mu phi)
      fun x => Compton.blr k integ x z d_L δ mu_s R_b L_disk xi_line epsilon_line R_line r d gamma mu phi := by
  set eps := nus.map (nuToEps k · z 1) with heps
  have hm : (mapNd (nuToEps k · z 1) (vec nus)).data = eps := rfl
  have sg := seen_40 gamma mu.length phi.length eps.length
  have sm := seen_41 gamma.length mu phi.length eps.length
  have sp := seen_42 gamma.length mu.length phi eps.length
  have se := seen_43 gamma.length mu.length phi.length eps
  have sx := seen_map sm fun m => xReShell m R_line r
  have sms := seen_map sm fun m => muStarShell m R_line r
  obtain ⟨K, e1, s1, r1⟩ := seen_lift4 (fun g e m p => comptonKernel g e epsilon_line mu_s m p) sg se sms sp
  obtain ⟨it, e2, s2, r2⟩ := seen_lift4 (fun x n g K => 1 / x ^ 2 * n / g ^ 2 * K) sx
    (seen_boosted4 (d := d) (R_b := R_b) (δ := δ) gamma mu.length phi.length eps.length) sg s1
  have hK : K.shape = [gamma.length, mu.length, phi.length, eps.length] := by
    have := r1; simpa [ofNd, Arr.map, bshapeEq] using this.symm
  have hi : it.shape = [gamma.length, mu.length, phi.length, eps.length] := by
    have := r2; simpa [ofNd, Arr.map, hK, bshapeEq] using this.symm
  obtain ⟨a, b, c, e3, e4, e5, h5, s5⟩ := core4 (integ := integ) (integ' := trapz) (integ'' := trapz)
    (fun N g m p e => 1 / xReShell m R_line r ^ 2 * N / g ^ 2
      * comptonKernel g e epsilon_line mu_s (muStarShell m R_line r) p) hi
    (boostedN_length (d := d) (R_b := R_b) (δ := δ)) s2
  unfold blr
  simp only [hm, axes4_eq, boosted_eq (rest := [1, 1, 1]) (by simp), bind, Except.bind, e1, e2, e3, e4, e5]
  rw [show eps.length = nus.length by simp [heps]] at h5 s5
  refine finish _ h5 s5 fun j hj => ?_
  simp [Compton.blr, Compton.fold, heps, hj]

/-- C100: accretion disk -/
theorem C100_disk {M_BH L_disk eta R_in R_out : ℝ} {mu_size : ℕ} (nus : List ℝ) :
    Pointwise (vec nus)
      (ssDisk k integ (vec nus) z d_L δ mu_s R_b M_BH L_disk eta R_in R_out r d gamma mu_size phi)
      fun x => Compton.ssDisk k integ x z d_L δ mu_s R_b M_BH L_disk eta R_in R_out r d gamma mu_size phi := by
  set eps := nus.map (nuToEps k · z 1) with heps
  have hm : (mapNd (nuToEps k · z 1) (vec nus)).data = eps := rfl
  set mu := SSDisk.muFromRTilde (toRg k R_in M_BH) (toRg k R_out M_BH) (toRg k r M_BH) mu_size with hmu
  have sg := seen_40 gamma mu.length phi.length eps.length
  have sm := seen_41 gamma.length mu phi.length eps.length
  have sp := seen_42 gamma.length mu.length phi eps.length
  have se := seen_43 gamma.length mu.length phi.length eps
  have sE := seen_map sm fun m => SSDisk.epsilonMu k L_disk M_BH eta m (toRg k r M_BH)
  have sF := seen_map sm fun m => SSDisk.phiDiskMu m (toRg k R_in M_BH) (toRg k r M_BH)
  obtain ⟨em, e0, s0, r0⟩ := seen_zip sE sm
  obtain ⟨K, e1, s1, r1⟩ := seen_lift4 (fun g e (em : ℝ × ℝ) p => comptonKernel g e em.1 mu_s em.2 p) sg se s0 sp
  obtain ⟨fr, e6, s6, r6⟩ := seen_lift3
    (fun f e m => f / e ^ 2 / m / (m ^ (-2 : ℤ) - 1) ^ (3 / 2 : ℝ)) sF sE sm
  obtain ⟨it, e2, s2, r2⟩ := seen_lift4 (fun f n g K => f * n / g ^ 2 * K) s6
    (seen_boosted4 (d := d) (R_b := R_b) (δ := δ) gamma mu.length phi.length eps.length) sg s1
  have h0 : em.shape = [1, mu.length, 1, 1] := by
    have := r0; simpa [ofNd, Arr.map, bshapeEq] using this.symm
  have h6 : fr.shape = [1, mu.length, 1, 1] := by
    have := r6; simpa [ofNd, Arr.map, bshapeEq] using this.symm
  have hK : K.shape = [gamma.length, mu.length, phi.length, eps.length] := by
    have := r1; simpa [ofNd, Arr.map, h0, bshapeEq] using this.symm
  have hi : it.shape = [gamma.length, mu.length, phi.length, eps.length] := by
    have := r2; simpa [ofNd, Arr.map, hK, h6, bshapeEq] using this.symm
  obtain ⟨a, b, c, e3, e4, e5, h5, s5⟩ := core4 (integ := integ) (integ' := trapz) (integ'' := trapz)
    (fun N g m p e => SSDisk.phiDiskMu m (toRg k R_in M_BH) (toRg k r M_BH)
      / SSDisk.epsilonMu k L_disk M_BH eta m (toRg k r M_BH) ^ 2 / m / (m ^ (-2 : ℤ) - 1) ^ (3 / 2 : ℝ) * N / g ^ 2
      * comptonKernel g e (SSDisk.epsilonMu k L_disk M_BH eta m (toRg k r M_BH)) mu_s m p) hi
    (boostedN_length (d := d) (R_b := R_b) (δ := δ)) s2
  unfold ssDisk
  simp only [hm, axes4_eq, boosted_eq (rest := [1, 1, 1]) (by simp), bind, Except.bind, ← hmu, e0, e1, e6, e2, e3, e4,
    e5]
  rw [show eps.length = nus.length by simp [heps]] at h5 s5
  refine finish _ h5 s5 fun j hj => ?_
  simp only [Compton.ssDisk, Compton.fold, ← hmu]
  simp [heps, hj]

/-- C100: torus -/
theorem C100_dt {L_disk xi_dt epsilon_dt R_dt : ℝ} (nus : List ℝ) :
    Pointwise (vec nus) (dt k integ (vec nus) z d_L δ mu_s R_b L_disk xi_dt epsilon_dt R_dt r d gamma phi)
      fun x => Compton.dt k integ x z d_L δ mu_s R_b L_disk xi_dt epsilon_dt R_dt r d gamma phi := by
  set eps := nus.map (nuToEps k · z 1) with heps
  have hm : (mapNd (nuToEps k · z 1) (vec nus)).data = eps := rfl
  have sg := seen_30 gamma phi.length eps.length
  have sp := seen_31 gamma.length phi eps.length
  have se := seen_32 gamma.length phi.length eps
  obtain ⟨K, e1, s1, r1⟩ := seen_lift3
    (fun g e p => comptonKernel g e epsilon_dt mu_s (r / xReRing R_dt r) p) sg se sp
  obtain ⟨it, e2, s2, r2⟩ := seen_lift3 (fun n g K => n / g ^ 2 * K)
    (seen_boosted3 (d := d) (R_b := R_b) (δ := δ) gamma phi.length eps.length) sg s1
  have hK : K.shape = [gamma.length, phi.length, eps.length] := by
    have := r1; simpa [ofNd, Arr.map, bshapeEq] using this.symm
  have hi : it.shape = [gamma.length, phi.length, eps.length] := by
    have := r2; simpa [ofNd, Arr.map, hK, bshapeEq] using this.symm
  obtain ⟨a, b, e3, e4, h5, s5⟩ := core3 (integ := integ) (integ' := trapz) (v := phi)
    (fun N g _ p e => N / g ^ 2 * comptonKernel g e epsilon_dt mu_s (r / xReRing R_dt r) p) hi
    (boostedN_length (d := d) (R_b := R_b) (δ := δ)) rfl s2
  unfold dt
  simp only [hm, axes3_eq, boosted_eq (rest := [1, 1]) (by simp), bind, Except.bind, e1, e2, e3, e4]
  rw [show eps.length = nus.length by simp [heps]] at h5 s5
  refine finish _ h5 s5 fun j hj => ?_
  simp [Compton.dt, Compton.fold, Verif.over, heps, hj, List.zipWith_self]

/-! ### Synchrotron self-Compton -/

/-- an array with one axis along the middle of three -/
theorem seen_middle {a : Arr ℝ} {n m p : ℕ} {F : List ℕ → ℝ} (ha : a.shape = [n]) (sa : Seen [n] a F) :
    ∃ c, reshape1 a [1, a.list.length, 1] = .ok c ∧ c.shape = [1, n, 1]
      ∧ Seen [m, n, p] c fun i => F [i.getD 1 0] := by
  have hl : a.list.length = n := by simp [Arr.list, ha]
  refine ⟨⟨[1, n, 1], fun idx => a.get [(offset [1, n, 1] idx).getD 0]⟩, ?_, rfl, ?_, ?_⟩
  · unfold reshape1; rw [hl, ha]; simp
  · exact .cons (.inl rfl) (.cons (.inr rfl) (.cons (.inl rfl) .nil))
  · intro idx hi
    rcases hi with _ | ⟨h0, _ | ⟨h1, _ | ⟨h2, _ | _⟩⟩⟩
    rename_i i j q
    have key := seen_full sa ha [j] (.cons h1 .nil)
    by_cases h : n = 1
    · subst h
      obtain rfl : j = 0 := by omega
      simpa [clamp, offset] using key
    · simpa [clamp, offset, h, h1] using key

theorem seen_densities3 {n : ℕ} {w : List ℝ} (V : ℝ) (h : w.length = n) (m p : ℕ) :
    Seen [n, m, p] ((ofNd ⟨[n, 1, 1], w⟩).map (V * ·)) fun i => (w.map (V * ·)).getD (i.getD 0 0) 0 := by
  subst h
  exact seen_scaled (n := 0) V rfl (seen_30 w m p)

/-- C100: synchrotron self-Compton, frequencies of any shape -/
theorem C100_ssc (ssa : Bool) (nu : NdArray ℝ) (hnu : nu.shape.prod = nu.data.length) :
    Pointwise nu (sscSed k integ ssa nu z d_L δ B R_b d gamma)
      fun x => Compton.sscSed k integ ssa x z d_L δ B R_b d gamma := by
  set eps := nu.data.map (nuToEps k · z δ) with heps
  have hm : (mapNd (nuToEps k · z δ) nu).data = eps := rfl
  set T := Compton.nuToIntegrate with hT
  set e := T.map (nuToEps k · z δ) with he
  have hel : e.length = T.length := by simp [he]
  obtain ⟨sy, e1, h1, s1⟩ := synch_vec (k := k) (integ := integ) (z := z) (d_L := d_L) (δ := δ) (B := B)
    (R_b := R_b) (d := d) (gamma := gamma) ssa T
  rw [← hel] at h1 s1
  obtain ⟨u, e2, s2, r2⟩ := seen_lift2 (fun e s => uPhSynchDiff k R_b d_L δ e s) (seen_vec e) s1
  have h2 : u.shape = [e.length] := by
    have := r2; simpa [ofNd, vec, h1, bshapeEq] using this.symm
  set g2 := afterSynch ssa d gamma with hg2
  set g3 := d.afterCall g2 with hg3
  have hl : g3.length = g2.length := afterCall_length d g2
  obtain ⟨U, e3, h3, s3⟩ := seen_middle (m := g3.length) (p := eps.length) h2 s2
  have sg := seen_30 g3 e.length eps.length
  have se := seen_31 g3.length e eps.length
  have ss := seen_32 g3.length e.length eps
  have sN := seen_densities3 (w := g3.map d.call) (Synchrotron.volume R_b) (by simp : _ = g3.length) e.length eps.length
  obtain ⟨K, e4, s4, r4⟩ := seen_lift3 isotropicKernel sg se ss
  obtain ⟨fr, e5, s5, r5⟩ := seen_lift4 (fun u e n g => u / e ^ 2 * n / g ^ 2) s3 se sN sg
  obtain ⟨it, e6, s6, r6⟩ := seen_lift2 (· * ·) s5 s4
  have h4 : K.shape = [g3.length, e.length, eps.length] := by
    have := r4; simpa [ofNd, bshapeEq] using this.symm
  have h5 : fr.shape = [g3.length, e.length, 1] := by
    have := r5; simpa [ofNd, Arr.map, h3, bshapeEq] using this.symm
  have h6 : it.shape = [g3.length, e.length, eps.length] := by
    have := r6; simpa [h4, h5, bshapeEq] using this.symm
  obtain ⟨a, b, e7, e8, h8, s8⟩ := core3 (integ := integ) (integ' := integ)
    (w := (g3.map d.call).map (Synchrotron.volume R_b * ·))
    (v := List.zipWith (uPhSynchDiff k R_b d_L δ) e
      (T.map fun x => Synchrotron.sedFlux k integ ssa x z d_L δ B R_b d gamma))
    (fun N g u e es => u / e ^ 2 * N / g ^ 2 * isotropicKernel g e es) h6 (by simp) (by simp [hel]) (by
      refine ⟨s6.fits, fun idx hi => ?_⟩
      rw [s6.get idx hi]
      rcases hi with _ | ⟨h0, _ | ⟨h1, _ | ⟨h2, _ | _⟩⟩⟩
      have h1' := h1
      rw [hel] at h1'
      simp [h0, h1, h1'])
  have e9 : reshape1 b nu.shape = .ok ⟨nu.shape, fun idx => b.get [(offset nu.shape idx).getD 0]⟩ := by
    unfold reshape1; rw [h8, if_pos (by simp [hnu, heps])]
  obtain ⟨c, e10, s10, r10⟩ := seen_lift2 (D := nu.shape) (fun e j => 3 / 4 * k.c * k.sigma_T * e ^ 2 * j)
    (seen_of_get (a := ofNd (mapNd (nuToEps k · z δ) nu)) rfl fun _ _ => rfl)
    (seen_of_get (a := ⟨nu.shape, fun idx => b.get [(offset nu.shape idx).getD 0]⟩) rfl fun _ _ => rfl)
  have hc : c.shape = nu.shape := by
    have := r10; simpa [ofNd, mapNd, bshapeEq_self] using this.symm
  refine ⟨c.map (δ ^ 4 / (4 * Real.pi * d_L ^ 2) * ·), ?_, hc, fun idx x hx => ?_⟩
  · have hs : (mapNd (nuToEps k · z δ) nu).shape = nu.shape := rfl
    rw [hl] at e4 e5
    unfold sscSed
    simp only [hm, ← hT, ← he, ← hg2, bind, Except.bind, e1, e2, axes3_eq,
      evaluateNd_axis d g2 g2.length (rest := [1, 1]) (by simp), Dist.evaluate, ← hg3, e3, e4, e5, e6, e7, e8, hs, e9, e10]
  · obtain ⟨n, hn, hd⟩ := get?_some hx
    obtain ⟨hw, hlt⟩ := offset_some hn
    show δ ^ 4 / (4 * Real.pi * d_L ^ 2) * c.get idx = _
    rw [seen_full s10 hc idx hw, get_mapNd hx]
    simp only [hn, Option.getD_some]
    have hlen : n < eps.length := by simpa [heps, ← hnu] using hlt
    rw [seen_full s8 h8 [n] (.cons hlen .nil)]
    simp only [Compton.sscSed, ← hT]
    have hx' : eps.getD n 0 = nuToEps k x z δ := by simp [heps, hd]
    have hg : d.afterCall (if ssa = true then d.afterSSA (d.afterCall gamma) else d.afterCall gamma) = g3 := rfl
    simp only [List.getD_cons_zero, hx', hg, Verif.over, ← he]
    congr 3
    apply List.ext_getElem
    · simp [hel]
    · intro i i1 i2
      simp [he, List.zipWith_map_left, List.zipWith_self]

end Verif.Batch

end
