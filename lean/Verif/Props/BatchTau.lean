import Verif.Props.Batch

/-
C100 for the opacities, the SED of the disk and the proton synchrotron SED.
-/

noncomputable section

namespace Verif.Batch

open MathUtils Spectra Geometry Kernels Region Targets

variable {k : Consts} {integ : List ℝ → List ℝ → ℝ} {z d_L δ B R_b mu_s r : ℝ} {d : Dist} {gamma mu phi : List ℝ}

/-- the last step of an opacity -/
theorem finish_map {nus : List ℝ} {a : Arr ℝ} {F : List ℕ → ℝ} {op : ℝ → ℝ} (ha : a.shape = [nus.length])
    (sa : Seen [nus.length] a F) {f : ℝ → ℝ} (hf : ∀ j (h : j < nus.length), op (F [j]) = f nus[j]) :
    Pointwise (vec nus) (.ok (a.map op)) f :=
  pointwise_vec rfl ha (seen_map sa op) hf

/-- C100: the SED of the disk -/
theorem C100_disk_sed {M_BH m_dot R_in R_out : ℝ} (nus : List ℝ) :
    Pointwise (vec nus) (multiTbbSed k (vec nus) z M_BH m_dot R_in R_out d_L mu_s)
      fun x => SSDisk.multiTSed k x z M_BH m_dot R_in R_out d_L mu_s := by
  set eps := nus.map (· * (1 + z)) with heps
  have hm : (mapNd (· * (1 + z)) (vec nus)).data = eps := rfl
  set R := linspace R_in R_out 100 with hR
  have sR := seen_20 R eps.length
  have se := seen_21 R.length eps
  have sT := seen_map sR fun R => SSDisk.T k R M_BH m_dot R_in
  obtain ⟨I, e1, s1, r1⟩ := seen_lift2 (fun n T => planck k n T) se sT
  obtain ⟨it, e2, s2, r2⟩ := seen_lift2 (fun R I => R / d_L ^ 2 * I) sR s1
  have hI : I.shape = [R.length, eps.length] := by
    have := r1; simpa [ofNd, Arr.map, bshapeEq] using this.symm
  have hi : it.shape = [R.length, eps.length] := by
    have := r2; simpa [ofNd, Arr.map, hI, bshapeEq] using this.symm
  obtain ⟨a, e3, h3, s3⟩ := core2 (integ := trapz) (w := R)
    (fun _ R e => R / d_L ^ 2 * planck k e (SSDisk.T k R M_BH m_dot R_in)) hi rfl s2
  rw [show eps.length = nus.length by simp [heps]] at h3 s3
  obtain ⟨c, e4, s4, r4⟩ := seen_lift2 (fun n F => n * (2 * Real.pi * F)) (seen_vec nus) s3
  have hc : c.shape = [nus.length] := by
    have := r4; simpa [ofNd, vec, h3, bshapeEq] using this.symm
  unfold multiTbbSed
  simp only [hm, axes2_eq, ← hR, bind, Except.bind, e1, e2, e3, e4]
  refine finish_map hc s4 fun j hj => ?_
  simp only [SSDisk.multiTSed, ← hR]
  simp [Verif.over, heps, hj, List.zipWith_self]

/-- C100: proton synchrotron -/
theorem C100_proton (nus : List ℝ) :
    ∃ c, sedFluxProton k integ (vec nus) z d_L δ B R_b d gamma = .ok (c, d.afterCall gamma)
      ∧ Pointwise (vec nus) (.ok c) (fun x => Synchrotron.sedFluxProton k integ x z d_L δ B R_b d gamma) := by
  have hl : (d.afterCall gamma).length = gamma.length := afterCall_length d gamma
  obtain ⟨pw, it, em, e1, e2, e3, h3, s3⟩ := synch_core (integ := integ) (fun e g => Synchrotron.power k B e g k.m_p)
    (nus.map (nuToEpsP k · z δ)) (w := ((d.afterCall gamma).map d.call).map (Synchrotron.volume R_b * ·))
    (g := d.afterCall gamma) (by simp) rfl (seen_densities (Synchrotron.volume R_b) (by simp) _)
  rw [hl] at e1 e2
  have hv : mapNd (nuToEpsP k · z δ) (vec nus) = vec (nus.map (nuToEpsP k · z δ)) := by simp [mapNd, vec]
  obtain ⟨c, e5, s5, r5⟩ := seen_lift2 (fun e j => δ ^ 4 / (4 * Real.pi * d_L ^ 2) * e * j)
    (seen_vec (nus.map (nuToEpsP k · z δ))) s3
  have hc : c.shape = [nus.length] := by
    have := r5; simpa [ofNd, vec, h3, bshapeEq] using this.symm
  rw [List.length_map] at s5
  refine ⟨c, ?_, pointwise_vec rfl hc s5 fun j hj => ?_⟩
  · unfold sedFluxProton
    rw [hv]
    simp only [vec, axes2_eq, evaluateNd_axis d gamma gamma.length (rest := [1]) (by simp), bind, Except.bind,
      Dist.evaluate, e1, e2, e3] at e5 ⊢
    rw [e5]
  · simp [Synchrotron.sedFluxProton, Dist.evaluate, hj]

/-! ### Opacities -/

/-- C100: point source, photons off the axis -/
theorem C100_tau_ps {epsilon_0 L_0 : ℝ} {u_size : ℕ} (nus : List ℝ) :
    Pointwise (vec nus) (tauPSMuS k (vec nus) z mu_s epsilon_0 L_0 r u_size)
      fun x => Absorption.tauPSMuS k x z mu_s epsilon_0 L_0 r u_size := by
  set eps := nus.map (nuToEps k · z 1) with heps
  have hm : (mapNd (nuToEps k · z 1) (vec nus)).data = eps := rfl
  set uu := (logspace (-5) 5 u_size).map (· * r) with huu
  have su := seen_20 uu eps.length
  have se := seen_21 uu.length eps
  have sx := seen_map su fun u => √(r * r + u * u + 2 * u * r * mu_s)
  obtain ⟨m, e1, s1, r1⟩ := seen_lift2 (fun u x => (r + u * mu_s) / x) su sx
  have sc := seen_map s1 fun m => cosPsi mu_s m 0
  obtain ⟨s, e2, s2, r2⟩ := seen_lift2 (fun e c => e * epsilon_0 * (1 - c) / 2) se sc
  obtain ⟨it, e3, s3, r3⟩ := seen_lift3 (fun c x s => (1 - c) / x ^ 2 * Absorption.sigma k s) sc sx s2
  have h1 : m.shape = [uu.length, 1] := by
    have := r1; simpa [ofNd, Arr.map, bshapeEq] using this.symm
  have h2 : s.shape = [uu.length, eps.length] := by
    have := r2; simpa [ofNd, Arr.map, h1, bshapeEq] using this.symm
  have h3 : it.shape = [uu.length, eps.length] := by
    have := r3; simpa [ofNd, Arr.map, h1, h2, bshapeEq] using this.symm
  obtain ⟨a, e4, h4, s4⟩ := core2 (integ := trapz) (w := uu)
    (fun _ u e =>
      let x := √(r * r + u * u + 2 * u * r * mu_s)
      let c := cosPsi mu_s ((r + u * mu_s) / x) 0
      (1 - c) / x ^ 2 * Absorption.sigma k (e * epsilon_0 * (1 - c) / 2)) h3 rfl s3
  rw [show eps.length = nus.length by simp [heps]] at h4 s4
  unfold tauPSMuS
  simp only [hm, axes2_eq, ← huu, bind, Except.bind, e1, e2, e3, e4]
  refine finish_map h4 s4 fun j hj => ?_
  simp only [Absorption.tauPSMuS, ← huu]
  simp [Verif.over, heps, hj, List.zipWith_self]

/-- C100: disk -/
theorem C100_tau_disk {M_BH L_disk eta R_in R_out : ℝ} {R_size l_size : ℕ} (nus : List ℝ) :
    Pointwise (vec nus) (tauDisk k (vec nus) z mu_s M_BH L_disk eta R_in R_out r R_size l_size phi)
      fun x => Absorption.tauDisk k x z mu_s M_BH L_disk eta R_in R_out r R_size l_size phi := by
  set eps := nus.map (nuToEps k · z 1) with heps
  have hm : (mapNd (nuToEps k · z 1) (vec nus)).data = eps := rfl
  set R := linspace (toRg k R_in M_BH) (toRg k R_out M_BH) R_size with hR
  set l := (logspace 0 5 l_size).map (· * toRg k r M_BH) with hl
  have sR := seen_40 R phi.length l.length eps.length
  have sp := seen_41 R.length phi l.length eps.length
  have sl := seen_42 R.length phi.length l eps.length
  have se := seen_43 R.length phi.length l.length eps
  have sE := seen_map sR fun R => SSDisk.epsilon k L_disk M_BH eta R
  have sF := seen_map sR fun R => 1 - (toRg k R_in M_BH / R) ^ (1 / 2 : ℝ)
  obtain ⟨m, e1, s1, r1⟩ := seen_lift2 (fun R l => (1 + R ^ 2 / l ^ 2) ^ (-1 / 2 : ℝ)) sR sl
  obtain ⟨c, e2, s2, r2⟩ := seen_lift2 (fun m p => cosPsi mu_s m p) s1 sp
  obtain ⟨s, e3, s3, r3⟩ := seen_lift3 (fun e e1 c => e * e1 * (1 - c) / 2) sE se s2
  obtain ⟨fr, e4, s4, r4⟩ := seen_lift4
    (fun l R f e => 1 / l ^ 2 / R ^ 2 / (1 + R ^ 2 / l ^ 2) ^ (3 / 2 : ℝ) * f / e) sl sR sF sE
  obtain ⟨it, e5, s5, r5⟩ := seen_lift3 (fun f s c => f * Absorption.sigma k s * (1 - c)) s4 s3 s2
  have h1 : m.shape = [R.length, 1, l.length, 1] := by
    have := r1; simpa [ofNd, Arr.map, bshapeEq] using this.symm
  have h2 : c.shape = [R.length, phi.length, l.length, 1] := by
    have := r2; simpa [ofNd, Arr.map, h1, bshapeEq] using this.symm
  have h3 : s.shape = [R.length, phi.length, l.length, eps.length] := by
    have := r3; simpa [ofNd, Arr.map, h2, bshapeEq] using this.symm
  have h4 : fr.shape = [R.length, 1, l.length, 1] := by
    have := r4; simpa [ofNd, Arr.map, bshapeEq] using this.symm
  have h5 : it.shape = [R.length, phi.length, l.length, eps.length] := by
    have := r5; simpa [ofNd, Arr.map, h2, h3, h4, bshapeEq] using this.symm
  obtain ⟨a, b, c', e6, e7, e8, h8, s8⟩ := core4 (integ := trapz) (integ' := trapz) (integ'' := trapz) (w := R)
    (fun _ R p l e1 =>
      let e := SSDisk.epsilon k L_disk M_BH eta R
      let f := 1 - (toRg k R_in M_BH / R) ^ (1 / 2 : ℝ)
      let c := cosPsi mu_s ((1 + R ^ 2 / l ^ 2) ^ (-1 / 2 : ℝ)) p
      1 / l ^ 2 / R ^ 2 / (1 + R ^ 2 / l ^ 2) ^ (3 / 2 : ℝ) * f / e * Absorption.sigma k (e * e1 * (1 - c) / 2) * (1 - c))
    h5 rfl s5
  rw [show eps.length = nus.length by simp [heps]] at h8 s8
  unfold tauDisk
  simp only [hm, axes4_eq, ← hR, ← hl, bind, Except.bind, e1, e2, e3, e4, e5, e6, e7, e8]
  refine finish_map h8 s8 fun j hj => ?_
  simp only [Absorption.tauDisk, ← hR, ← hl]
  simp [Verif.over, heps, hj, List.zipWith_self]

/-- C100: broad line region, photons on the axis -/
theorem C100_tau_blr {L_disk xi_line epsilon_line R_line : ℝ} {l_size : ℕ} (nus : List ℝ) :
    Pointwise (vec nus) (tauBLR k (vec nus) z mu_s L_disk xi_line epsilon_line R_line r l_size mu phi)
      fun x => Absorption.tauBLR k x z mu_s L_disk xi_line epsilon_line R_line r l_size mu phi := by
  set eps := nus.map (nuToEps k · z 1) with heps
  have hm : (mapNd (nuToEps k · z 1) (vec nus)).data = eps := rfl
  set l := Absorption.guardPath ((logspace 0 5 l_size).map (· * r)) R_line with hl
  have sm := seen_40 mu phi.length l.length eps.length
  have sp := seen_41 mu.length phi l.length eps.length
  have sl := seen_42 mu.length phi.length l eps.length
  have se := seen_43 mu.length phi.length l.length eps
  obtain ⟨x, e1, s1, r1⟩ := seen_lift2 (fun m l => xReShell m R_line l) sm sl
  obtain ⟨ms, e2, s2, r2⟩ := seen_lift2 (fun m l => muStarShell m R_line l) sm sl
  obtain ⟨c, e3, s3, r3⟩ := seen_lift2 (fun m p => cosPsi mu_s m p) s2 sp
  obtain ⟨s, e4, s4, r4⟩ := seen_lift2 (fun e c => e * epsilon_line * (1 - c) / 2) se s3
  obtain ⟨it, e5, s5, r5⟩ := seen_lift3 (fun c x s => (1 - c) / x ^ 2 * Absorption.sigma k s) s3 s1 s4
  have h1 : x.shape = [mu.length, 1, l.length, 1] := by
    have := r1; simpa [ofNd, Arr.map, bshapeEq] using this.symm
  have h2 : ms.shape = [mu.length, 1, l.length, 1] := by
    have := r2; simpa [ofNd, Arr.map, bshapeEq] using this.symm
  have h3 : c.shape = [mu.length, phi.length, l.length, 1] := by
    have := r3; simpa [ofNd, Arr.map, h2, bshapeEq] using this.symm
  have h4 : s.shape = [mu.length, phi.length, l.length, eps.length] := by
    have := r4; simpa [ofNd, Arr.map, h3, bshapeEq] using this.symm
  have h5 : it.shape = [mu.length, phi.length, l.length, eps.length] := by
    have := r5; simpa [ofNd, Arr.map, h1, h3, h4, bshapeEq] using this.symm
  obtain ⟨a, b, c', e6, e7, e8, h8, s8⟩ := core4 (integ := trapz) (integ' := trapz) (integ'' := trapz) (w := mu)
    (fun _ m p l e =>
      let c := cosPsi mu_s (muStarShell m R_line l) p
      (1 - c) / xReShell m R_line l ^ 2 * Absorption.sigma k (e * epsilon_line * (1 - c) / 2))
    h5 rfl s5
  rw [show eps.length = nus.length by simp [heps]] at h8 s8
  unfold tauBLR
  simp only [hm, axes4_eq, ← hl, bind, Except.bind, e1, e2, e3, e4, e5, e6, e7, e8]
  refine finish_map h8 s8 fun j hj => ?_
  simp only [Absorption.tauBLR, ← hl]
  simp [Verif.over, heps, hj, List.zipWith_self]

/-- C100: broad line region, photons off the axis -/
theorem C100_tau_blr_off {L_disk xi_line epsilon_line R_line : ℝ} {u_size : ℕ} (nus : List ℝ) :
    Pointwise (vec nus) (tauBLRMuS k (vec nus) z mu_s L_disk xi_line epsilon_line R_line r u_size mu phi)
      fun x => Absorption.tauBLRMuS k x z mu_s L_disk xi_line epsilon_line R_line r u_size mu phi := by
  set eps := nus.map (nuToEps k · z 1) with heps
  have hm : (mapNd (nuToEps k · z 1) (vec nus)).data = eps := rfl
  set uu := Absorption.guardPathMuS ((logspace (-5) 5 u_size).map (· * r)) R_line r mu_s with huu
  have sm := seen_40 mu phi.length uu.length eps.length
  have sp := seen_41 mu.length phi uu.length eps.length
  have su := seen_42 mu.length phi.length uu eps.length
  have se := seen_43 mu.length phi.length uu.length eps
  obtain ⟨x, e1, s1, r1⟩ := seen_lift3 (fun p m u => xReShellMuS R_line r p m u mu_s) sp sm su
  obtain ⟨pm, e2, s2, r2⟩ := seen_lift3 (fun p m u => phiMuReShell R_line r p m u mu_s) sp sm su
  have s3 := seen_map s2 fun pm => cosPsi mu_s pm.2 pm.1
  obtain ⟨s, e4, s4, r4⟩ := seen_lift2 (fun e c => e * epsilon_line * (1 - c) / 2) se s3
  obtain ⟨it, e5, s5, r5⟩ := seen_lift3 (fun c x s => (1 - c) / x ^ 2 * Absorption.sigma k s) s3 s1 s4
  have h1 : x.shape = [mu.length, phi.length, uu.length, 1] := by
    have := r1; simpa [ofNd, Arr.map, bshapeEq] using this.symm
  have h2 : pm.shape = [mu.length, phi.length, uu.length, 1] := by
    have := r2; simpa [ofNd, Arr.map, bshapeEq] using this.symm
  have h4 : s.shape = [mu.length, phi.length, uu.length, eps.length] := by
    have := r4; simpa [ofNd, Arr.map, h2, bshapeEq] using this.symm
  have h5 : it.shape = [mu.length, phi.length, uu.length, eps.length] := by
    have := r5; simpa [ofNd, Arr.map, h1, h2, h4, bshapeEq] using this.symm
  obtain ⟨a, b, c', e6, e7, e8, h8, s8⟩ := core4 (integ := trapz) (integ' := trapz) (integ'' := trapz) (w := mu)
    (fun _ m p u e =>
      let pm := phiMuReShell R_line r p m u mu_s
      let c := cosPsi mu_s pm.2 pm.1
      (1 - c) / xReShellMuS R_line r p m u mu_s ^ 2 * Absorption.sigma k (e * epsilon_line * (1 - c) / 2))
    h5 rfl s5
  rw [show eps.length = nus.length by simp [heps]] at h8 s8
  unfold tauBLRMuS
  simp only [hm, axes4_eq, ← huu, bind, Except.bind, e1, e2, e4, e5, e6, e7, e8]
  refine finish_map h8 s8 fun j hj => ?_
  simp only [Absorption.tauBLRMuS, ← huu]
  simp [Verif.over, heps, hj, List.zipWith_self]

/-- C100: torus, photons on the axis -/
theorem C100_tau_dt {L_disk xi_dt epsilon_dt R_dt : ℝ} {l_size : ℕ} (nus : List ℝ) :
    Pointwise (vec nus) (tauDT k (vec nus) z mu_s L_disk xi_dt epsilon_dt R_dt r l_size phi)
      fun x => Absorption.tauDT k x z mu_s L_disk xi_dt epsilon_dt R_dt r l_size phi := by
  set eps := nus.map (nuToEps k · z 1) with heps
  have hm : (mapNd (nuToEps k · z 1) (vec nus)).data = eps := rfl
  set l := (logspace 0 5 l_size).map (· * r) with hl
  have sp := seen_30 phi l.length eps.length
  have sl := seen_31 phi.length l eps.length
  have se := seen_32 phi.length l.length eps
  have sx := seen_map sl fun l => xReRing R_dt l
  obtain ⟨m, e1, s1, r1⟩ := seen_lift2 (fun l x => l / x) sl sx
  obtain ⟨c, e3, s3, r3⟩ := seen_lift2 (fun m p => cosPsi mu_s m p) s1 sp
  obtain ⟨s, e4, s4, r4⟩ := seen_lift2 (fun e c => e * epsilon_dt * (1 - c) / 2) se s3
  obtain ⟨it, e5, s5, r5⟩ := seen_lift3 (fun c x s => (1 - c) / x ^ 2 * Absorption.sigma k s) s3 sx s4
  have h1 : m.shape = [1, l.length, 1] := by
    have := r1; simpa [ofNd, Arr.map, bshapeEq] using this.symm
  have h3 : c.shape = [phi.length, l.length, 1] := by
    have := r3; simpa [ofNd, Arr.map, h1, bshapeEq] using this.symm
  have h4 : s.shape = [phi.length, l.length, eps.length] := by
    have := r4; simpa [ofNd, Arr.map, h3, bshapeEq] using this.symm
  have h5 : it.shape = [phi.length, l.length, eps.length] := by
    have := r5; simpa [ofNd, Arr.map, h1, h3, h4, bshapeEq] using this.symm
  obtain ⟨a, b, e6, e7, h8, s8⟩ := core3 (integ := trapz) (integ' := trapz) (w := phi) (v := l)
    (fun _ p _ l e =>
      let x := xReRing R_dt l
      let c := cosPsi mu_s (l / x) p
      (1 - c) / x ^ 2 * Absorption.sigma k (e * epsilon_dt * (1 - c) / 2))
    h5 rfl rfl s5
  rw [show eps.length = nus.length by simp [heps]] at h8 s8
  unfold tauDT
  simp only [hm, axes3_eq, ← hl, bind, Except.bind, e1, e3, e4, e5, e6, e7]
  refine finish_map h8 s8 fun j hj => ?_
  simp only [Absorption.tauDT, ← hl]
  simp [Verif.over, heps, hj, List.zipWith_self]

/-- C100: torus, photons off the axis -/
theorem C100_tau_dt_off {L_disk xi_dt epsilon_dt R_dt : ℝ} {u_size : ℕ} (nus : List ℝ) :
    Pointwise (vec nus) (tauDTMuS k (vec nus) z mu_s L_disk xi_dt epsilon_dt R_dt r u_size phi)
      fun x => Absorption.tauDTMuS k x z mu_s L_disk xi_dt epsilon_dt R_dt r u_size phi := by
  set eps := nus.map (nuToEps k · z 1) with heps
  have hm : (mapNd (nuToEps k · z 1) (vec nus)).data = eps := rfl
  set l := (logspace (-5) 5 u_size).map (· * r) with hl
  have sp := seen_30 phi l.length eps.length
  have sl := seen_31 phi.length l eps.length
  have se := seen_32 phi.length l.length eps
  obtain ⟨x, e1, s1, r1⟩ := seen_lift2 (fun p u => xReRingMuS R_dt r p u mu_s) sp sl
  obtain ⟨pm, e2, s2, r2⟩ := seen_lift2 (fun p u => phiMuReRing R_dt r p u mu_s) sp sl
  have s3 := seen_map s2 fun pm => cosPsi mu_s pm.2 pm.1
  obtain ⟨s, e4, s4, r4⟩ := seen_lift2 (fun e c => e * epsilon_dt * (1 - c) / 2) se s3
  obtain ⟨it, e5, s5, r5⟩ := seen_lift3 (fun c x s => (1 - c) / x ^ 2 * Absorption.sigma k s) s3 s1 s4
  have h1 : x.shape = [phi.length, l.length, 1] := by
    have := r1; simpa [ofNd, Arr.map, bshapeEq] using this.symm
  have h2 : pm.shape = [phi.length, l.length, 1] := by
    have := r2; simpa [ofNd, Arr.map, bshapeEq] using this.symm
  have h4 : s.shape = [phi.length, l.length, eps.length] := by
    have := r4; simpa [ofNd, Arr.map, h2, bshapeEq] using this.symm
  have h5 : it.shape = [phi.length, l.length, eps.length] := by
    have := r5; simpa [ofNd, Arr.map, h1, h2, h4, bshapeEq] using this.symm
  obtain ⟨a, b, e6, e7, h8, s8⟩ := core3 (integ := trapz) (integ' := trapz) (w := phi) (v := l)
    (fun _ p _ u e =>
      let pm := phiMuReRing R_dt r p u mu_s
      let c := cosPsi mu_s pm.2 pm.1
      (1 - c) / xReRingMuS R_dt r p u mu_s ^ 2 * Absorption.sigma k (e * epsilon_dt * (1 - c) / 2))
    h5 rfl rfl s5
  rw [show eps.length = nus.length by simp [heps]] at h8 s8
  unfold tauDTMuS
  simp only [hm, axes3_eq, ← hl, bind, Except.bind, e1, e2, e4, e5, e6, e7]
  refine finish_map h8 s8 fun j hj => ?_
  simp only [Absorption.tauDTMuS, ← hl]
  simp [Verif.over, heps, hj, List.zipWith_self]

/-- an array with one axis as a column -/
theorem seen_column {a : Arr ℝ} {n m : ℕ} {F : List ℕ → ℝ} (ha : a.shape = [n]) (sa : Seen [n] a F) :
    ∃ c, reshape1 a [a.list.length, 1] = .ok c ∧ c.shape = [n, 1]
      ∧ Seen [n, m] c fun i => F [i.getD 0 0] := by
  have hl : a.list.length = n := by simp [Arr.list, ha]
  refine ⟨⟨[n, 1], fun idx => a.get [(offset [n, 1] idx).getD 0]⟩, ?_, rfl, ?_, ?_⟩
  · unfold reshape1; rw [hl, ha]; simp
  · exact .cons (.inr rfl) (.cons (.inl rfl) .nil)
  · intro idx hi
    rcases hi with _ | ⟨h0, _ | ⟨h1, _ | _⟩⟩
    rename_i i j
    have key := seen_full sa ha [i] (.cons h0 .nil)
    by_cases h : n = 1
    · subst h
      obtain rfl : i = 0 := by omega
      simpa [clamp, offset] using key
    · simpa [clamp, offset, h, h0] using key

/-- C100: photons of the blob's own synchrotron radiation -/
theorem C100_tau_synch {b : Blob} {nu_s_size : ℕ} {low : ℝ} (nus : List ℝ) :
    Pointwise (vec nus) (tauSynch k b (vec nus) nu_s_size low) fun x => Absorption.tauSynch k b x nu_s_size low := by
  set eps := nus.map (nuToEps k · b.z b.delta_D) with heps
  have hm : (mapNd (nuToEps k · b.z b.delta_D) (vec nus)).data = eps := rfl
  set obs := (Absorption.synchFrequencies k b nu_s_size low).map fun nu => nu * b.delta_D / (1 + b.z) with hobs
  set e := obs.map fun nu => nuToEps k nu b.z b.delta_D with he
  have hel : e.length = obs.length := by simp [he]
  obtain ⟨sy, e1, h1, s1⟩ := synch_vec (k := k) (integ := trapz) (z := b.z) (d_L := b.d_L) (δ := b.delta_D) (B := b.B)
    (R_b := b.R_b) (d := b.n_e) (gamma := b.gamma_e) true obs
  rw [← hel] at h1 s1
  obtain ⟨n, e2, s2, r2⟩ := seen_lift2 (fun sed eps =>
    (3 * b.d_L ^ 2 * sed) / (k.c * b.R_b ^ 2 * b.delta_D ^ 4 * eps ^ 2 * k.m_e * k.c ^ 2) * (3 / 4)) s1 (seen_vec e)
  have h2 : n.shape = [e.length] := by
    have := r2; simpa [ofNd, vec, h1, bshapeEq] using this.symm
  obtain ⟨N, e3, h3, s3⟩ := seen_column (m := eps.length) h2 s2
  obtain ⟨s, e4, s4, r4⟩ := seen_lift2 (fun e e1 => e * e1 / 2) (seen_20 e eps.length) (seen_21 e.length eps)
  obtain ⟨it, e5, s5, r5⟩ := seen_lift2 (fun n s => n * Absorption.sigma k s) s3 s4
  have h4 : s.shape = [e.length, eps.length] := by
    have := r4; simpa [ofNd, bshapeEq] using this.symm
  have h5 : it.shape = [e.length, eps.length] := by
    have := r5; simpa [h3, h4, bshapeEq] using this.symm
  obtain ⟨a, e6, h6, s6⟩ := core2 (integ := trapz)
    (w := List.zipWith (fun sed eps =>
      (3 * b.d_L ^ 2 * sed) / (k.c * b.R_b ^ 2 * b.delta_D ^ 4 * eps ^ 2 * k.m_e * k.c ^ 2) * (3 / 4))
      (obs.map fun nu => Synchrotron.sedFlux k trapz true nu b.z b.d_L b.delta_D b.B b.R_b b.n_e b.gamma_e) e)
    (fun N e e1 => N * Absorption.sigma k (e * e1 / 2)) h5 (by simp [hel]) (by
      refine ⟨s5.fits, fun idx hi => ?_⟩
      rw [s5.get idx hi]
      rcases hi with _ | ⟨h0, _ | ⟨h1, _ | _⟩⟩
      have h0' := h0
      rw [hel] at h0'
      simp [h0, h0'])
  rw [show eps.length = nus.length by simp [heps]] at h6 s6
  unfold tauSynch
  simp only [hm, axes2_eq, ← hobs, ← he, bind, Except.bind, e1, e2, e3, e4, e5, e6]
  refine finish_map h6 s6 fun j hj => ?_
  simp only [Absorption.tauSynch, ← hobs, ← he]
  simp [heps, hj]

end Verif.Batch

end
