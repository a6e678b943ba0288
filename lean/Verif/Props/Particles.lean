import Verif.Model.Particles
import Verif.Props.Blob
import Verif.Lemmas.Radiation

/-
C104: an emission region holds what its populations were normalised to.

Specification: the totals that the region reports (density, energy density, total energy, number) are the arguments of
the class method that made the population.
-/

namespace Verif.Particles

open MathUtils Spectra Region

variable {k : Consts} {s : Shape} {a c : ℝ}

theorem finish_ok {mass : MassArg} {r : Except CtorErr Dist} {p : Pop} (h : finish mass r = .ok p) :
    r = .ok p.dist ∧ ((mass = .m_e ∧ p.species = .electrons) ∨ (mass = .m_p ∧ p.species = .protons)) := by
  cases r with
  | error e => cases h
  | ok d =>
    cases mass <;> cases h
    · exact ⟨rfl, .inl ⟨rfl, rfl⟩⟩
    · exact ⟨rfl, .inr ⟨rfl, rfl⟩⟩

/-- C104: the constructors accept exactly the two constants themselves, and a population of electrons (protons) was made
with `m_e` (`m_p`) -/
theorem C104_species (d : Dist) (mass : MassArg) :
    (∀ p, make d mass = .ok p ↔ p.dist = d ∧ ((mass = .m_e ∧ p.species = .electrons) ∨ (mass = .m_p ∧ p.species = .protons)))
      ∧ ∀ m, make d (.other m) = .error .noDistribution := by
  refine ⟨fun p => ⟨fun h => ?_, ?_⟩, fun m => rfl⟩
  · obtain ⟨h1, h2⟩ := finish_ok (r := .ok d) h
    exact ⟨(Except.ok.inj h1).symm, h2⟩
  · obtain ⟨d', sp⟩ := p
    rintro ⟨rfl, ⟨rfl, h⟩ | ⟨rfl, h⟩⟩ <;> simp only at h <;> subst h <;> rfl

/-- the trapezoidal sum on 200 points between the limits of the distribution -/
theorem integrate_own (ha : 0 < a) (hac : a < c) (x : ℝ) (power : ℕ) :
    (s.mk x a c).integrate trapz none none power
      = trapz (List.zipWith (· * ·) ((logspace (log10 a) (log10 c) 200).map (· ^ power))
          ((s.mk x a c).evaluate (logspace (log10 a) (log10 c) 200)).2) (logspace (log10 a) (log10 c) 200) := by
  obtain ⟨mid, hmid⟩ := logspace_ends ha (ha.trans hac)
  have e : (s.mk x a c).integrate trapz none none power = (s.mk x a c).integralWith trapz a c power := by
    cases s <;> rfl
  rw [e]
  unfold Dist.integralWith Dist.evaluate
  simp only [afterCall_mk]
  rw [hmid, correctBoundary_id]
  congr 1
  unfold Dist.powers
  rw [List.zipWith_comm]
  congr 1
  funext x y
  exact mul_comm _ _

theorem zip_ones (l ys : List ℝ) (h : l.length = ys.length) : List.zipWith (· * ·) (l.map (· ^ 0)) ys = ys := by
  induction l generalizing ys with
  | nil => cases ys <;> simp_all
  | cons x l ih =>
    cases ys with
    | nil => simp at h
    | cons y ys =>
      rw [List.map_cons, List.zipWith_cons_cons, ih ys (by simpa using h), pow_zero, one_mul]

theorem total_of_density {n_tot : ℝ} (ha : 0 < a) (hac : a < c) {d : Dist}
    (h : fromTotalDensity s n_tot (some a) (some c) = .ok d) :
    d.gmin = a ∧ d.gmax = c ∧ trapz (d.evaluate (logspace (log10 a) (log10 c) 200)).2 (logspace (log10 a) (log10 c) 200)
      = n_tot := by
  have h1 := C26_density h
  obtain ⟨x, rfl⟩ : ∃ x, d = s.mk x a c := by
    unfold fromTotalDensity limits npDiv at h
    simp only [bind, Except.bind] at h
    split_ifs at h
    cases h
    exact ⟨_, rfl⟩
  refine ⟨by simp, by simp, ?_⟩
  rw [integrate_own ha hac, zip_ones] at h1
  · exact h1
  · obtain ⟨mid, hmid⟩ := logspace_ends ha (ha.trans hac)
    unfold Dist.evaluate
    simp only [afterCall_mk]
    rw [hmid, correctBoundary_id]
    simp

theorem total_of_energy {mc2 u_tot : ℝ} (ha : 0 < a) (hac : a < c) {d : Dist}
    (h : fromTotalEnergyDensity s mc2 u_tot (some a) (some c) = .ok d) :
    d.gmin = a ∧ d.gmax = c ∧ mc2 * trapz (List.zipWith (· * ·) (logspace (log10 a) (log10 c) 200)
      (d.evaluate (logspace (log10 a) (log10 c) 200)).2) (logspace (log10 a) (log10 c) 200) = u_tot := by
  have h1 := C26_energy_density h
  obtain ⟨x, rfl⟩ : ∃ x, d = s.mk x a c := by
    unfold fromTotalEnergyDensity limits npDiv at h
    simp only [bind, Except.bind] at h
    split_ifs at h
    cases h
    exact ⟨_, rfl⟩
  refine ⟨by simp, by simp, ?_⟩
  rw [integrate_own ha hac] at h1
  simpa only [pow_one, List.map_id'] using h1

/-- C104: the density asked for, with the default size of the grids -/
theorem C104_density {n_tot : ℝ} {mass : MassArg} (ha : 0 < a) (hac : a < c) {p : Pop}
    (h : ofDensity s n_tot mass (some a) (some c) = .ok p) {b : Blob} (he : b.gamma_e_size = 200) (hp : b.gamma_p_size = 200) :
    (setElectrons b p).n_e_tot = n_tot ∧ (setElectrons b p).N_e_tot = b.V_b * n_tot
      ∧ (setProtons b p).n_p_tot = .ok n_tot ∧ (setProtons b p).N_p_tot = .ok (b.V_b * n_tot) := by
  obtain ⟨h1, h2, h3⟩ := total_of_density ha hac (finish_ok h).1
  have e1 : (setElectrons b p).n_e_tot = n_tot := by
    unfold Blob.n_e_tot Blob.gamma_e
    simp only [setElectrons, h1, h2, he]
    exact h3
  have e2 : (setProtons b p).n_p_tot = .ok n_tot := by
    simp only [Blob.n_p_tot, Blob.protons, Blob.gamma_p, setProtons, bind, Except.bind, h1, h2, hp, h3]
  refine ⟨e1, ?_, e2, ?_⟩
  · unfold Blob.N_e_tot
    rw [e1]
    rfl
  · unfold Blob.N_p_tot
    rw [e2]
    rfl

/-- C104: the energy density asked for, times the ratio of the mass of the slot to the mass given.  The region does not
look at the species of the population. -/
theorem C104_energy_density (hk : k.Pos) {u_tot : ℝ} {mass : MassArg} (ha : 0 < a) (hac : a < c) {p : Pop}
    (h : ofEnergyDensity k s u_tot mass (some a) (some c) = .ok p) {b : Blob} (he : b.gamma_e_size = 200)
    (hp : b.gamma_p_size = 200) :
    (setElectrons b p).u_e k = k.mec2 / mass.mc2 k * u_tot
      ∧ (setProtons b p).u_p k = .ok (k.mpc2 / mass.mc2 k * u_tot) := by
  obtain ⟨h0, hm⟩ := finish_ok h
  obtain ⟨h1, h2, h3⟩ := total_of_energy ha hac h0
  have hpos : 0 < mass.mc2 k := by
    have := hk.m_e; have := hk.m_p; have := hk.c
    rcases hm with ⟨rfl, _⟩ | ⟨rfl, _⟩ <;> simp only [MassArg.mc2, Consts.mec2, Consts.mpc2] <;> positivity
  have h4 : trapz (List.zipWith (· * ·) (logspace (log10 a) (log10 c) 200)
      (p.dist.evaluate (logspace (log10 a) (log10 c) 200)).2) (logspace (log10 a) (log10 c) 200) = u_tot / mass.mc2 k := by
    rw [← h3]
    field_simp
  constructor
  · unfold Blob.u_e Blob.gamma_e
    simp only [setElectrons, h1, h2, he, h4]
    ring
  · simp only [Blob.u_p, Blob.protons, Blob.gamma_p, setProtons, bind, Except.bind, h1, h2, hp, h4]
    congr 1
    ring

/-- C104: electrons as electrons and protons as protons -/
theorem C104_right_species (hk : k.Pos) {u_tot : ℝ} (ha : 0 < a) (hac : a < c) {b : Blob} (he : b.gamma_e_size = 200)
    (hp : b.gamma_p_size = 200) {e p : Pop} (h1 : ofEnergyDensity k s u_tot .m_e (some a) (some c) = .ok e)
    (h2 : ofEnergyDensity k s u_tot .m_p (some a) (some c) = .ok p) :
    (setElectrons b e).u_e k = u_tot ∧ (setProtons b p).u_p k = .ok u_tot := by
  have := hk.m_e; have := hk.m_p; have := hk.c
  have m1 : k.mec2 ≠ 0 := by unfold Consts.mec2; positivity
  have m2 : k.mpc2 ≠ 0 := by unfold Consts.mpc2; positivity
  refine ⟨?_, ?_⟩
  · rw [(C104_energy_density hk ha hac h1 he hp).1, MassArg.mc2, div_self m1, one_mul]
  · rw [(C104_energy_density hk ha hac h2 he hp).2, MassArg.mc2, div_self m2, one_mul]

/-- C104: a population made with the mass of the other species is accepted, and the region then reports an energy density
off by the ratio of the masses -/
theorem C104_wrong_species (hk : k.Pos) (hs : s.Positive) {u_tot : ℝ} (ha : 0 < a) (hac : a < c) {b : Blob}
    (hp : b.gamma_p_size = 200) (he : b.gamma_e_size = 200) :
    ∃ p, ofEnergyDensity k s u_tot .m_e (some a) (some c) = .ok p ∧ p.species = .electrons
      ∧ (setProtons b p).u_p k = .ok (k.m_p / k.m_e * u_tot) := by
  have := hk.m_e; have := hk.m_p; have := hk.c
  have m1 : 0 < k.mec2 := by unfold Consts.mec2; positivity
  obtain ⟨d, hd⟩ := (C26_succeeds hs ha hac (mc2 := k.mec2) m1 (V := 1) one_ne_zero u_tot).2.1
  have h : ofEnergyDensity k s u_tot .m_e (some a) (some c) = .ok ⟨d, .electrons⟩ := by
    simp only [ofEnergyDensity, MassArg.mc2, hd, finish, make]
  refine ⟨_, h, rfl, ?_⟩
  rw [(C104_energy_density hk ha hac h he hp).2, MassArg.mc2]
  congr 1
  unfold Consts.mec2 Consts.mpc2
  field_simp

/-- C104: the density at Lorentz factor 1 asked for -/
theorem C104_at_one {n1 : ℝ} {mass : MassArg} {p : Pop} (h : ofDensityAt1 s n1 mass a c = .ok p) (b : Blob) :
    (setElectrons b p).n_e.call 1 = n1 :=
  C27_value (finish_ok h).1

/-- C104: the total energy asked for in the volume of the region -/
theorem C104_energy (hk : k.Pos) {W : ℝ} (ha : 0 < a) (hac : a < c) {b : Blob} (he : b.gamma_e_size = 200)
    (hp : b.gamma_p_size = 200) {e p : Pop} (h1 : ofEnergy k s W b.V_b .m_e (some a) (some c) = .ok e)
    (h2 : ofEnergy k s W b.V_b .m_p (some a) (some c) = .ok p) :
    (setElectrons b e).W_e k = W ∧ (setProtons b p).W_p k = .ok W := by
  have key : ∀ mass q, ofEnergy k s W b.V_b mass (some a) (some c) = .ok q →
      b.V_b ≠ 0 ∧ ofEnergyDensity k s (W / b.V_b) mass (some a) (some c) = .ok q := by
    intro mass q h
    unfold ofEnergy fromTotalEnergy npDiv at h
    by_cases h0 : b.V_b = 0
    · simp only [h0, if_true, bind, Except.bind, finish] at h
      cases h
    · refine ⟨h0, ?_⟩
      simp only [if_neg h0, bind, Except.bind] at h
      exact h
  obtain ⟨hV, h1'⟩ := key _ _ h1
  obtain ⟨_, h2'⟩ := key _ _ h2
  obtain ⟨e1, e2⟩ := C104_right_species hk ha hac he hp h1' h2'
  constructor
  · unfold Blob.W_e
    rw [e1]
    exact mul_div_cancel₀ W hV
  · unfold Blob.W_p
    rw [e2]
    exact congrArg Except.ok (mul_div_cancel₀ W hV)

/-- C104: the population is proportional to what is asked for -/
theorem C104_proportional (n x mc2 : ℝ) (gmin gmax : Option ℝ) :
    fromTotalDensity s (x * n) gmin gmax = (fromTotalDensity s n gmin gmax).map (Dist.scale x)
      ∧ fromTotalEnergyDensity s mc2 (x * n) gmin gmax = (fromTotalEnergyDensity s mc2 n gmin gmax).map (Dist.scale x) := by
  have e : ∀ x y a b, s.mk (x * y) a b = (s.mk y a b).scale x := fun x y a b => by cases s <;> rfl
  unfold fromTotalDensity fromTotalEnergyDensity limits npDiv
  constructor <;> rcases gmin with _ | a <;> rcases gmax with _ | b <;> simp only [bind, Except.bind, Except.map] <;>
    split_ifs <;> simp only [mul_div_assoc, e]

/-- C104: the numbers by Lorentz factor of the protons add up to their total -/
theorem C104_N_p (b : Blob) :
    (b.n_p = none → ∀ g, N_p b g = .error .attributeError)
      ∧ ∀ n, b.n_p = some n → ∃ g N, b.gamma_p = .ok g ∧ N_p b g = .ok N ∧ b.N_p_tot = .ok (trapz N g)
        ∧ b.W_p k = .ok (k.mpc2 * trapz (List.zipWith (· * ·) g N) g) := by
  constructor
  · intro h g
    simp only [N_p, Blob.protons, h, bind, Except.bind]
  · intro n hn
    obtain ⟨g, h1, h2, h3⟩ := Blob.C47_total_protons k b hn
    refine ⟨g, _, h1, ?_, h3, h2⟩
    simp only [N_p, Blob.protons, hn, bind, Except.bind]

/-- a log-parabola of 7 erg/cm³ in the default grids, as electrons and as protons -/
example (hk : k.Pos) (b : Blob) (h1 : b.gamma_e_size = 200) (h2 : b.gamma_p_size = 200) :
    ∃ e p, ofEnergyDensity k (.logParabola 2 1 100) 7 .m_e (some 10) (some 1000) = .ok e
      ∧ ofEnergyDensity k (.logParabola 2 1 100) 7 .m_p (some 10) (some 1000) = .ok p
      ∧ (setElectrons b e).u_e k = 7 ∧ (setProtons b p).u_p k = .ok 7 := by
  have := hk.m_e; have := hk.m_p; have := hk.c
  have hs : (Shape.logParabola 2 1 100).Positive := by norm_num [Shape.Positive]
  have key : ∀ mc2 : ℝ, 0 < mc2 → ∃ d, fromTotalEnergyDensity (.logParabola 2 1 100) mc2 7 (some 10) (some 1000) = .ok d :=
    fun mc2 h => (C26_succeeds hs (a := 10) (b := 1000) (by norm_num) (by norm_num) h (V := 1) one_ne_zero 7).2.1
  obtain ⟨d1, hd1⟩ := key k.mec2 (by unfold Consts.mec2; positivity)
  obtain ⟨d2, hd2⟩ := key k.mpc2 (by unfold Consts.mpc2; positivity)
  have e1 : ofEnergyDensity k (.logParabola 2 1 100) 7 .m_e (some 10) (some 1000) = .ok ⟨d1, .electrons⟩ := by
    simp only [ofEnergyDensity, MassArg.mc2, hd1, finish, make]
  have e2 : ofEnergyDensity k (.logParabola 2 1 100) 7 .m_p (some 10) (some 1000) = .ok ⟨d2, .protons⟩ := by
    simp only [ofEnergyDensity, MassArg.mc2, hd2, finish, make]
  exact ⟨_, _, e1, e2, C104_right_species hk (by norm_num) (by norm_num) h1 h2 e1 e2⟩

end Verif.Particles
