import Verif.Props.UnitSystem
import Verif.Props.Blob
import Verif.Props.Targets
import Verif.Model.Constraints

/- C103: opacities, energy densities and quantities of the emission region do not depend on the system of units -/

namespace Verif.UnitSystem

open MathUtils Spectra Geometry Absorption Targets Region

variable {u : Units} {k : Consts}

theorem sigma' (s : ℝ) : sigma (u.consts k) s = u.l ^ 4 * sigma k s := by
  unfold sigma
  simp only [Units.consts]
  split_ifs
  · simp
  · ring

/-- C103: opacity of a point source behind the jet -/
theorem C103_tau_ps (hk : k.Pos) {r : ℝ} (nu z mu_s epsilon_0 L_0 : ℝ) :
    tauPS (u.consts k) (u.frequency nu) z mu_s epsilon_0 (u.luminosity L_0) (u.length r)
      = tauPS k nu z mu_s epsilon_0 L_0 r := by
  have := u.l_pos; have := u.m_pos; have := u.t_pos; have := hk.c; have := hk.m_e
  unfold tauPS
  simp only [eps hk, sigma']
  generalize sigma k _ = S
  simp only [Units.consts, Units.length, Units.luminosity]
  rcases eq_or_ne r 0 with rfl | hr
  · simp
  rcases eq_or_ne epsilon_0 0 with rfl | h
  · simp
  · field_simp

theorem path (r a b : ℝ) (n : ℕ) :
    (logspace a b n).map (· * u.length r) = ((logspace a b n).map (· * r)).map (· * u.l ^ 2) := by
  rw [List.map_map]
  apply List.map_congr_left
  intro x _
  simp only [Units.length, Function.comp]
  ring

theorem stretch (f : ℝ → ℝ) (grid : List ℝ) :
    over trapz (grid.map (· * u.l ^ 2)) f = u.l ^ 2 * over trapz grid fun x => f (u.length x) := by
  rw [TargetField.over_stretch]
  simp only [Units.length, mul_comm]

theorem cross (r x mu_s : ℝ) :
    √(u.length r * u.length r + u.length x * u.length x + 2 * u.length x * u.length r * mu_s)
      = u.length √(r * r + x * x + 2 * x * r * mu_s) := by
  unfold Units.length
  rw [← sqrt_length]
  ring_nf

/-- photons seen from a distance -/
theorem inv_sq (a x S : ℝ) : a / u.length x ^ 2 * (u.l ^ 4 * S) = a / x ^ 2 * S := by
  have := u.l_pos
  unfold Units.length
  rcases eq_or_ne x 0 with rfl | hx
  · simp
  · field_simp

theorem along (r x mu_s : ℝ) : u.length r + u.length x * mu_s = u.length (r + x * mu_s) := by
  unfold Units.length; ring

theorem at' (x : ℝ) : x * u.l ^ 2 = u.length x := mul_comm _ _

/-- luminosity per rest mass, velocity and length -/
theorem pref (hk : k.Pos) (a b L ε J : ℝ) :
    a * u.luminosity L / (b * ε * (u.consts k).m_e * (u.consts k).c ^ 3) * (u.l ^ 2 * J)
      = a * L / (b * ε * k.m_e * k.c ^ 3) * J := by
  have := u.l_pos; have := u.m_pos; have := u.t_pos; have := hk.c; have := hk.m_e
  simp only [Units.consts, Units.luminosity]
  rcases eq_or_ne (b * ε) 0 with h | h
  · simp [h]
  · field_simp

/-- C103: opacity of a point source seen from aside -/
theorem C103_tau_ps_mu_s (hk : k.Pos) (nu z mu_s epsilon_0 L_0 r : ℝ) (n : ℕ) :
    tauPSMuS (u.consts k) (u.frequency nu) z mu_s epsilon_0 (u.luminosity L_0) (u.length r) n
      = tauPSMuS k nu z mu_s epsilon_0 L_0 r n := by
  unfold tauPSMuS
  simp only [eps hk, path, stretch, cross, along, length_div, sigma', inv_sq]
  have := pref (u := u) hk 1 (4 * Real.pi) L_0 epsilon_0
  simp only [one_mul] at this
  exact this _

/-- C103: opacity of the torus, along the axis -/
theorem C103_tau_dt (hk : k.Pos) (nu z mu_s L_disk xi_dt epsilon_dt R_dt r : ℝ) (n : ℕ) (phi : List ℝ) :
    tauDT (u.consts k) (u.frequency nu) z mu_s (u.luminosity L_disk) xi_dt epsilon_dt (u.length R_dt) (u.length r) n phi
      = tauDT k nu z mu_s L_disk xi_dt epsilon_dt R_dt r n phi := by
  unfold tauDT
  simp only [eps hk, path, stretch, ring', length_div, sigma', inv_sq]
  have := pref (u := u) hk xi_dt (8 * Real.pi ^ 2) L_disk epsilon_dt
  simp only [mul_comm xi_dt] at this
  exact this _

theorem arctan2_scale {c : ℝ} (hc : 0 < c) (y x : ℝ) : arctan2 (c * y) (c * x) = arctan2 y x := by
  unfold arctan2
  have : (⟨c * x, c * y⟩ : ℂ) = (c : ℂ) * ⟨x, y⟩ := by
    apply Complex.ext <;> simp
  rw [this, Complex.arg_real_mul _ hc]

theorem ringMuS (R r phi x mu_s : ℝ) :
    xReRingMuS (u.length R) (u.length r) phi (u.length x) mu_s = u.length (xReRingMuS R r phi x mu_s) := by
  unfold xReRingMuS Units.length
  dsimp only
  rw [← sqrt_length]
  ring_nf

theorem shellMuS (R r phi mu x mu_s : ℝ) :
    xReShellMuS (u.length R) (u.length r) phi mu (u.length x) mu_s = u.length (xReShellMuS R r phi mu x mu_s) := by
  unfold xReShellMuS Units.length
  dsimp only
  rw [← sqrt_length]
  ring_nf

theorem phiRing (R r phi x mu_s : ℝ) :
    phiMuReRing (u.length R) (u.length r) phi (u.length x) mu_s = phiMuReRing R r phi x mu_s := by
  have := u.l_pos
  unfold phiMuReRing
  simp only [ringMuS]
  refine Prod.ext ?_ ?_
  · dsimp only
    refine Eq.trans ?_ (arctan2_scale (c := u.l ^ 2) (by positivity) _ _)
    unfold Units.length
    congr 1 <;> ring
  · dsimp only
    refine Eq.trans ?_ (length_div (u := u) _ _)
    congr 1
    unfold Units.length
    ring

theorem phiShell (R r phi mu x mu_s : ℝ) :
    phiMuReShell (u.length R) (u.length r) phi mu (u.length x) mu_s = phiMuReShell R r phi mu x mu_s := by
  have := u.l_pos
  unfold phiMuReShell
  simp only [shellMuS]
  refine Prod.ext ?_ ?_
  · dsimp only
    refine Eq.trans ?_ (arctan2_scale (c := u.l ^ 2) (by positivity) _ _)
    unfold Units.length
    congr 1 <;> ring
  · dsimp only
    refine Eq.trans ?_ (length_div (u := u) _ _)
    congr 1
    unfold Units.length
    ring

/-- C103: opacity of the torus, seen from aside -/
theorem C103_tau_dt_mu_s (hk : k.Pos) (nu z mu_s L_disk xi_dt epsilon_dt R_dt r : ℝ) (n : ℕ) (phi : List ℝ) :
    tauDTMuS (u.consts k) (u.frequency nu) z mu_s (u.luminosity L_disk) xi_dt epsilon_dt (u.length R_dt) (u.length r) n phi
      = tauDTMuS k nu z mu_s L_disk xi_dt epsilon_dt R_dt r n phi := by
  unfold tauDTMuS
  simp only [eps hk, path, stretch, ringMuS, phiRing, sigma', inv_sq]
  have := pref (u := u) hk xi_dt (8 * Real.pi ^ 2) L_disk epsilon_dt
  simp only [mul_comm xi_dt] at this
  exact this _

/-- C103: opacity of the broad line region, along the axis.  The code moves the nodes of the path that `np.isclose` puts
on the shell, and that function compares with 1e-8 cm: the change of units must not change which nodes those are. -/
theorem C103_tau_blr (hk : k.Pos) (nu z mu_s L_disk xi epsilon_line R_line r : ℝ) (n : ℕ) (mu phi : List ℝ)
    (hc : ∀ x ∈ (logspace 0 5 n).map (· * r), closeTo (u.length x) (u.length R_line) ↔ closeTo x R_line) :
    tauBLR (u.consts k) (u.frequency nu) z mu_s (u.luminosity L_disk) xi epsilon_line (u.length R_line) (u.length r) n mu phi
      = tauBLR k nu z mu_s L_disk xi epsilon_line R_line r n mu phi := by
  have e : guardPath ((logspace 0 5 n).map (· * u.length r)) (u.length R_line)
      = (guardPath ((logspace 0 5 n).map (· * r)) R_line).map (· * u.l ^ 2) := by
    rw [path]
    generalize (logspace 0 5 n).map (· * r) = l at hc
    unfold guardPath
    rw [List.map_map, List.map_map]
    apply List.map_congr_left
    intro x hx
    have h := hc x hx
    rw [← at' x] at h
    dsimp only [Function.comp]
    by_cases h0 : closeTo x R_line
    · rw [if_pos h0, if_pos (h.2 h0)]
      unfold Units.length; ring
    · rw [if_neg h0, if_neg fun h1 => h0 (h.1 h1)]
  unfold tauBLR
  simp only [eps hk, e, stretch, muStar, shell, sigma', inv_sq]
  have := pref (u := u) hk xi ((4 * Real.pi) ^ 2) L_disk epsilon_line
  simp only [mul_comm xi] at this
  exact this _

theorem crossing (r x mu_s : ℝ) : xCross (u.length r) (u.length x) mu_s = u.length (xCross r x mu_s) := by
  unfold xCross Units.length
  rw [← sqrt_length]
  ring_nf

theorem insert_stretch {c : ℝ} (hc : 0 < c) (a : ℝ) (l : List ℝ) :
    (l.map (· * c)).orderedInsert (· ≤ ·) (a * c) = (l.orderedInsert (· ≤ ·) a).map (· * c) := by
  induction l with
  | nil => simp
  | cons x l ih =>
    simp only [List.map_cons, List.orderedInsert_cons, mul_le_mul_iff_left₀ hc, ih]
    split_ifs <;> simp

theorem sort_stretch {c : ℝ} (hc : 0 < c) (l : List ℝ) :
    (l.map (· * c)).insertionSort (· ≤ ·) = (l.insertionSort (· ≤ ·)).map (· * c) := by
  induction l with
  | nil => simp
  | cons x l ih => simp only [List.map_cons, List.insertionSort_cons, ih, insert_stretch hc]

/-- C103: opacity of the broad line region, seen from aside -/
theorem C103_tau_blr_mu_s (hk : k.Pos) (nu z mu_s L_disk xi epsilon_line R_line r : ℝ) (n : ℕ) (mu phi : List ℝ)
    (hc : ∀ x ∈ (logspace (-5) 5 n).map (· * r),
      closeTo (u.length (xCross r x mu_s)) (u.length R_line) ↔ closeTo (xCross r x mu_s) R_line) :
    tauBLRMuS (u.consts k) (u.frequency nu) z mu_s (u.luminosity L_disk) xi epsilon_line (u.length R_line) (u.length r) n
        mu phi
      = tauBLRMuS k nu z mu_s L_disk xi epsilon_line R_line r n mu phi := by
  have hl : 0 < u.l ^ 2 := by have := u.l_pos; positivity
  have e : guardPathMuS ((logspace (-5) 5 n).map (· * u.length r)) (u.length R_line) (u.length r) mu_s
      = (guardPathMuS ((logspace (-5) 5 n).map (· * r)) R_line r mu_s).map (· * u.l ^ 2) := by
    rw [path]
    generalize (logspace (-5) 5 n).map (· * r) = l at hc
    unfold guardPathMuS
    have h1 : (∃ x ∈ l.map (· * u.l ^ 2), closeTo (xCross (u.length r) x mu_s) (u.length R_line))
        ↔ ∃ x ∈ l, closeTo (xCross r x mu_s) R_line := by
      constructor
      · rintro ⟨_, hx, h⟩
        obtain ⟨x, hx', rfl⟩ := List.mem_map.1 hx
        simp only [at', crossing] at h
        exact ⟨x, hx', (hc x hx').1 h⟩
      · rintro ⟨x, hx, h⟩
        refine ⟨x * u.l ^ 2, List.mem_map.2 ⟨x, hx, rfl⟩, ?_⟩
        simp only [at', crossing]
        exact (hc x hx).2 h
    by_cases h2 : ∃ x ∈ l, closeTo (xCross r x mu_s) R_line
    · rw [if_pos h2, if_pos (h1.2 h2)]
      rw [← sort_stretch hl, List.map_map, List.map_map]
      congr 1
      apply List.map_congr_left
      intro x hx
      have h := hc x hx
      rw [← crossing, ← at' x] at h
      dsimp only [Function.comp]
      by_cases h0 : closeTo (xCross r x mu_s) R_line
      · rw [if_pos h0, if_pos (h.2 h0)]
        unfold Units.length; ring
      · rw [if_neg h0, if_neg fun h3 => h0 (h.1 h3)]
    · rw [if_neg h2, if_neg fun h3 => h2 (h1.1 h3)]
  unfold tauBLRMuS
  simp only [eps hk, e, stretch, shellMuS, phiShell, sigma', inv_sq]
  have := pref (u := u) hk xi ((4 * Real.pi) ^ 2) L_disk epsilon_line
  simp only [mul_comm xi] at this
  exact this _

/-! ### the disk

The code holds the Eddington luminosity as a number of erg/s, hence the unit of luminosity stays. -/

theorem rg (hk : k.Pos) (M r : ℝ) : toRg (u.consts k) (u.length r) (u.mass M) = toRg k r M := by
  have := u.l_pos; have := u.m_pos; have := u.t_pos; have := hk.c; have := hk.G
  simp only [toRg, Units.consts, Units.length, Units.mass]
  rcases eq_or_ne M 0 with rfl | h
  · simp
  · field_simp

theorem luminosity_one (hL : u.m ^ 2 * u.l ^ 4 = u.t ^ 3) (x : ℝ) : u.luminosity x = x := by
  have := u.t_pos
  rw [Units.luminosity, hL, div_self (by positivity), one_mul]

theorem m8 (hk : k.Pos) (M : ℝ) : SSDisk.M_8 (u.consts k) (u.mass M) = SSDisk.M_8 k M := by
  have := u.m_pos; have := hk.M_sun
  simp only [SSDisk.M_8, Units.consts, Units.mass]
  field_simp

theorem diskEps (hk : k.Pos) (hL : u.m ^ 2 * u.l ^ 4 = u.t ^ 3) (L M eta R : ℝ) :
    SSDisk.epsilon (u.consts k) (u.luminosity L) (u.mass M) eta R = SSDisk.epsilon k L M eta R := by
  simp only [SSDisk.epsilon, SSDisk.l_Edd, SSDisk.L_Edd, m8 hk, luminosity_one hL]

/-- C103: external Compton on the disk -/
theorem C103_disk (hk : k.Pos) (hL : u.m ^ 2 * u.l ^ 4 = u.t ^ 3) {d_L r eta : ℝ} (hd : 0 < d_L) (hr : 0 < r) (he : 0 < eta)
    (nu z δ mu_s R_b M L R_in R_out : ℝ) (n : Dist) (gamma phi : List ℝ) (mu_size : ℕ) :
    Compton.ssDisk (u.consts k) I (u.frequency nu) z (u.length d_L) δ mu_s (u.length R_b) (u.mass M) (u.luminosity L) eta
        (u.length R_in) (u.length R_out) (u.length r) (u.particles n) gamma mu_size phi
      = u.flux (Compton.ssDisk k I nu z d_L δ mu_s R_b M L eta R_in R_out r n gamma mu_size phi) := by
  have := u.l_pos; have := u.m_pos; have := u.t_pos; have := hk.c
  unfold Compton.ssDisk
  simp only [boosted, eps hk, rg hk, SSDisk.epsilonMu, diskEps hk hL]
  generalize over trapz phi _ = J
  simp only [Units.consts, Units.length, Units.flux, Units.mass, Units.luminosity]
  field_simp

/-- C103: opacity of the disk -/
theorem C103_tau_disk (hk : k.Pos) (hL : u.m ^ 2 * u.l ^ 4 = u.t ^ 3) {M eta : ℝ} (hM : 0 < M) (he : 0 < eta)
    (nu z mu_s L R_in R_out r : ℝ) (R_size l_size : ℕ) (phi : List ℝ) :
    tauDisk (u.consts k) (u.frequency nu) z mu_s (u.mass M) (u.luminosity L) eta (u.length R_in) (u.length R_out)
        (u.length r) R_size l_size phi
      = tauDisk k nu z mu_s M L eta R_in R_out r R_size l_size phi := by
  have := u.l_pos; have := u.m_pos; have := u.t_pos; have := hk.c; have := hk.m_e; have := hk.G
  have e : ∀ a b c d f : ℝ, a * b / c * (u.l ^ 4 * d) * f = u.l ^ 4 * (a * b / c * d * f) := fun a b c d f => by ring
  unfold tauDisk
  simp only [eps hk, rg hk, diskEps hk hL, sigma', e, over_scale homogeneous_trapz]
  generalize over trapz (List.map _ _) _ = J
  simp only [Units.consts, Units.mass, Units.luminosity]
  field_simp

/-! ### energy densities -/

/-- a region in the new units -/
noncomputable def blobIn (u : Units) (b : Blob) : Blob :=
  { b with R_b := u.length b.R_b, d_L := u.length b.d_L, B := u.field b.B, n_e := u.particles b.n_e,
           n_p := b.n_p.map u.particles }

/-- C103: energy densities of the targets, in either frame -/
theorem C103_u_ps (hk : k.Pos) {r : ℝ} (hr : 0 < r) (t : PS) (b : Option Blob) :
    PS.u (u.consts k) { t with L_0 := u.luminosity t.L_0 } (u.length r) (b.map (blobIn u))
      = u.energyDensity (PS.u k t r b) := by
  have := u.l_pos; have := u.m_pos; have := u.t_pos; have := hk.c
  have e : u.luminosity t.L_0 / (4 * Real.pi * (u.consts k).c * u.length r ^ 2)
      = u.energyDensity (t.L_0 / (4 * Real.pi * k.c * r ^ 2)) := by
    simp only [Units.consts, Units.length, Units.luminosity, Units.energyDensity]
    field_simp
  cases b with
  | none => simpa only [PS.u, Option.map_none] using e
  | some b =>
    simp only [PS.u, Option.map_some, e]
    simp only [blobIn, Blob.Beta, Units.energyDensity]
    ring

/-- a torus in the new units -/
noncomputable def dtIn (u : Units) (t : DT) : DT where
  L_disk := u.luminosity t.L_disk
  xi_dt := t.xi_dt
  T_dt := u.θ * t.T_dt
  R_dt := u.length t.R_dt

theorem C103_u_dt (hk : k.Pos) {t : DT} (hR : 0 < t.R_dt) (r : ℝ) (b : Option Blob) :
    DT.u (u.consts k) (dtIn u t) (u.length r) (b.map (blobIn u))
      = u.energyDensity (DT.u k t r b) := by
  have := u.l_pos; have := u.m_pos; have := u.t_pos; have := hk.c
  have e0 : u.length t.R_dt ^ 2 + u.length r ^ 2 = u.l ^ 4 * (t.R_dt ^ 2 + r ^ 2) := by
    unfold Units.length; ring
  have e : t.xi_dt * u.luminosity t.L_disk / (4 * Real.pi * (u.consts k).c * (u.l ^ 4 * (t.R_dt ^ 2 + r ^ 2)))
      = u.energyDensity (t.xi_dt * t.L_disk / (4 * Real.pi * k.c * (t.R_dt ^ 2 + r ^ 2))) := by
    simp only [Units.consts, Units.luminosity, Units.energyDensity]
    field_simp
  cases b with
  | none => simpa only [DT.u, dtIn, Option.map_none, e0] using e
  | some b =>
    have e1 : u.length r / (u.l ^ 2 * √(t.R_dt ^ 2 + r ^ 2)) = r / √(t.R_dt ^ 2 + r ^ 2) := length_div r _
    simp only [DT.u, dtIn, Option.map_some, e0, e, sqrt_length, e1]
    simp only [blobIn, Blob.Beta, Units.energyDensity]
    ring

theorem C103_u_blr (hk : k.Pos) (t : BLR) (r : ℝ) (b : Option Blob) :
    BLR.u (u.consts k) { t with L_disk := u.luminosity t.L_disk, R_line := u.length t.R_line } (u.length r)
        (b.map (blobIn u))
      = u.energyDensity (BLR.u k t r b) := by
  have := u.l_pos; have := u.m_pos; have := u.t_pos; have := hk.c
  have e0 : ∀ mu, u.length r ^ 2 + u.length t.R_line ^ 2 - 2 * u.length r * u.length t.R_line * mu
      = u.l ^ 4 * (r ^ 2 + t.R_line ^ 2 - 2 * r * t.R_line * mu) := fun mu => by
    unfold Units.length; ring
  have e1 : ∀ x, u.length t.R_line ^ 2 / (u.l ^ 4 * x) = t.R_line ^ 2 / x := fun x => by
    unfold Units.length
    rw [mul_pow, show (u.l ^ 2) ^ 2 = u.l ^ 4 by ring, mul_div_mul_left _ _ (by positivity)]
  have e2 : ∀ x, 1 / (u.l ^ 4 * x) = 1 / u.l ^ 4 * (1 / x) := fun x => by rw [one_div_mul_one_div]
  have e3 : ∀ J, t.xi_line * u.luminosity t.L_disk / (8 * Real.pi * (u.consts k).c) * (1 / u.l ^ 4 * J)
      = u.energyDensity (t.xi_line * t.L_disk / (8 * Real.pi * k.c) * J) := fun J => by
    simp only [Units.consts, Units.luminosity, Units.energyDensity]
    field_simp
  cases b with
  | none =>
    simp only [BLR.u, Option.map_none, e0, e2, over_scale homogeneous_trapz, e3]
  | some b =>
    simp only [BLR.u, Option.map_some, e0, e1, e2, mul_assoc (1 / u.l ^ 4), over_scale homogeneous_trapz]
    exact e3 _

/-- a disk in the new units -/
noncomputable def diskIn (u : Units) (d : SSDisk) : SSDisk where
  M_BH := u.mass d.M_BH
  L_disk := u.luminosity d.L_disk
  eta := d.eta
  R_in := u.length d.R_in
  R_out := u.length d.R_out

theorem C103_u_disk (hk : k.Pos) {d : SSDisk} {r : ℝ} (hd : DiskOK d r) (b : Option Blob) :
    SSDisk.u (u.consts k) (diskIn u d) (u.length r) (b.map (blobIn u))
      = u.energyDensity (SSDisk.u k d r b) := by
  have := u.l_pos; have := u.m_pos; have := u.t_pos; have := hk.c; have := hk.G; have := hd.M_BH; have := hd.r
  have := hd.eta
  set d' : SSDisk := diskIn u d with hd'
  have eg : d'.R_g (u.consts k) = u.length (d.R_g k) := by
    simp only [hd', diskIn, SSDisk.R_g, Units.consts, Units.mass, Units.length]
    field_simp
  have e1 : d'.R_in_tilde (u.consts k) = d.R_in_tilde k := by
    unfold SSDisk.R_in_tilde; rw [eg, hd']; exact length_div _ _
  have e2 : d'.R_out_tilde (u.consts k) = d.R_out_tilde k := by
    unfold SSDisk.R_out_tilde; rw [eg, hd']; exact length_div _ _
  have hL : ∀ (k : Consts), k.Pos → ∀ M L : ℝ, 0 < M → SSDisk.l_Edd k L M * SSDisk.L_Edd k M = L := fun k hk M L hM => by
    unfold SSDisk.l_Edd
    apply div_mul_cancel₀
    unfold SSDisk.L_Edd SSDisk.M_8
    have := hk.M_sun
    positivity
  have hb : ∀ (c : Blob) mu, SSDisk.boost (blobIn u c) mu = SSDisk.boost c mu := fun c mu => rfl
  have e3 : ∀ J, 3 * SSDisk.l_Edd (u.consts k) d'.L_disk d'.M_BH * SSDisk.L_Edd (u.consts k) d'.M_BH * u.length (d.R_g k)
        / (8 * Real.pi * (u.consts k).c * d'.eta * u.length r ^ 3) * J
      = u.energyDensity (3 * SSDisk.l_Edd k d.L_disk d.M_BH * SSDisk.L_Edd k d.M_BH * d.R_g k
        / (8 * Real.pi * k.c * d.eta * r ^ 3) * J) := fun J => by
    have h1 := hL _ (pos (u := u) hk) d'.M_BH d'.L_disk (by simp only [hd', diskIn, Units.mass]; positivity)
    rw [mul_assoc 3, mul_assoc 3 (SSDisk.l_Edd k _ _), h1, hL _ hk _ _ hd.M_BH]
    simp only [hd', diskIn, Units.consts, Units.luminosity, Units.energyDensity, Units.length]
    field_simp
  unfold SSDisk.u SSDisk.uIntegrand
  cases b <;> simp only [eg, e1, e2, length_div, Option.map_none, Option.map_some, hb] <;> exact e3 _

/-! ### the emission region -/

theorem eval_scale (c : ℝ) (n : Dist) (g : List ℝ) : ((n.scale c).evaluate g).2 = (n.evaluate g).2.map (c * ·) := by
  unfold Dist.evaluate
  rw [Dist.scale_afterCall, List.map_map]
  apply List.map_congr_left
  intro x _
  exact Dist.scale_call c n x

theorem moment (n : Dist) (xs g : List ℝ) :
    trapz (List.zipWith (· * ·) xs ((n.scale (1 / u.l ^ 6)).evaluate g).2) g
      = 1 / u.l ^ 6 * trapz (List.zipWith (· * ·) xs (n.evaluate g).2) g := by
  rw [eval_scale, Blob.zipWith_scale, C33_trapz_scale]

theorem grid_e (b : Blob) : (blobIn u b).gamma_e = b.gamma_e := by
  simp only [Blob.gamma_e, blobIn, Units.particles, Dist.scale_gmin, Dist.scale_gmax]

/-- C103: densities of the electrons and of the field they radiate -/
theorem C103_region (hk : k.Pos) (b : Blob) :
    (blobIn u b).n_e_tot = 1 / u.l ^ 6 * b.n_e_tot ∧ (blobIn u b).N_e_tot = b.N_e_tot
      ∧ (blobIn u b).u_e (u.consts k) = u.energyDensity (b.u_e k) ∧ (blobIn u b).U_B = u.energyDensity b.U_B
      ∧ (blobIn u b).u_ph_synch (u.consts k) = u.energyDensity (b.u_ph_synch k)
      ∧ (blobIn u b).P_jet_B (u.consts k) = u.luminosity (b.P_jet_B k)
      ∧ (blobIn u b).t_var (u.consts k) = u.t * b.t_var k := by
  have := u.l_pos; have := u.m_pos; have := u.t_pos; have := hk.c
  have hU : (blobIn u b).U_B = u.energyDensity b.U_B := by
    simp only [Blob.U_B, blobIn, Units.field, Units.energyDensity]
    field_simp
  have hn : (blobIn u b).n_e_tot = 1 / u.l ^ 6 * b.n_e_tot := by
    unfold Blob.n_e_tot
    rw [grid_e]
    simp only [blobIn, Units.particles, eval_scale, C33_trapz_scale]
  refine ⟨hn, ?_, ?_, hU, ?_, ?_, ?_⟩
  · unfold Blob.N_e_tot
    rw [hn]
    simp only [Blob.V_b, blobIn, Units.length]
    field_simp
  · unfold Blob.u_e
    rw [grid_e]
    simp only [blobIn, Units.particles, moment, Consts.mec2, Units.consts, Units.energyDensity]
    field_simp
  · unfold Blob.u_ph_synch
    rw [grid_e, hU]
    simp only [blobIn, Units.particles, moment, Units.consts, Units.energyDensity, Units.length]
    field_simp
  · unfold Blob.P_jet_B Blob.jetPrefactor
    rw [hU]
    simp only [blobIn, Blob.Beta, Units.consts, Units.energyDensity, Units.length, Units.luminosity]
    field_simp
  · simp only [Blob.t_var, blobIn, Units.consts, Units.length]
    rcases eq_or_ne b.delta_D 0 with h | h
    · simp [h]
    · field_simp

/-- C103: densities of the protons -/
theorem C103_protons (hk : k.Pos) (b : Blob) :
    (blobIn u b).u_p (u.consts k) = (b.u_p k).map u.energyDensity ∧ (blobIn u b).N_p_tot = b.N_p_tot
      ∧ (blobIn u b).P_jet_ke (u.consts k) = (b.P_jet_ke k).map u.luminosity := by
  have := u.l_pos; have := u.m_pos; have := u.t_pos; have := hk.c
  have hP : ∀ x, (blobIn u b).jetPrefactor (u.consts k) * u.energyDensity x = u.luminosity (b.jetPrefactor k * x) := by
    intro x
    simp only [Blob.jetPrefactor, blobIn, Blob.Beta, Units.consts, Units.energyDensity, Units.length, Units.luminosity]
    field_simp
  have he := (C103_region (u := u) hk b).2.2.1
  have hp : (blobIn u b).u_p (u.consts k) = (b.u_p k).map u.energyDensity := by
    unfold Blob.u_p Blob.protons Blob.gamma_p
    simp only [blobIn]
    cases b.n_p with
    | none => rfl
    | some n =>
      simp only [Option.map_some, bind, Except.bind, Except.map, Units.particles, Dist.scale_gmin, Dist.scale_gmax, moment]
      congr 1
      simp only [Consts.mpc2, Units.consts, Units.energyDensity]
      field_simp
  refine ⟨hp, ?_, ?_⟩
  · unfold Blob.N_p_tot Blob.n_p_tot Blob.protons Blob.gamma_p
    simp only [blobIn, Blob.V_b]
    cases b.n_p with
    | none => rfl
    | some n =>
      simp only [Option.map_some, bind, Except.bind, Units.particles, Dist.scale_gmin, Dist.scale_gmax, eval_scale,
        C33_trapz_scale]
      congr 1
      simp only [Units.length]
      field_simp
  · unfold Blob.P_jet_ke
    rw [he, hp]
    have e : (blobIn u b).n_p = b.n_p.map u.particles := rfl
    rw [e]
    cases b.n_p with
    | none =>
      simp only [Option.map_none, Except.map]
      rw [hP]
    | some n =>
      simp only [Option.map_some]
      cases b.u_p k with
      | error x => rfl
      | ok x =>
        simp only [Except.map, bind, Except.bind]
        rw [← hP]
        congr 2
        unfold Units.energyDensity
        ring

/-- C103: the estimates of maximum and break Lorentz factors are numbers -/
theorem C103_limits (hk : k.Pos) {b : Blob} (hB : 0 < b.B) (hR : 0 < b.R_b) {t : DT} (ht : 0 < t.R_dt) (r : ℝ) :
    Constraints.gammaMaxLarmor (u.consts k) (blobIn u b) = Constraints.gammaMaxLarmor k b
      ∧ Constraints.gammaMaxBallistic (u.consts k) (blobIn u b) = Constraints.gammaMaxBallistic k b
      ∧ Constraints.gammaMaxSynch (u.consts k) (blobIn u b) = Constraints.gammaMaxSynch k b
      ∧ Constraints.gammaMaxSSC (u.consts k) (blobIn u b) = Constraints.gammaMaxSSC k b
      ∧ Constraints.gammaBreakSynch (u.consts k) (blobIn u b) = Constraints.gammaBreakSynch k b
      ∧ Constraints.gammaBreakSSC (u.consts k) (blobIn u b) = Constraints.gammaBreakSSC k b
      ∧ Constraints.gammaMaxECDT (u.consts k) (blobIn u b) (dtIn u t) (u.length r) = Constraints.gammaMaxECDT k b t r
      ∧ Constraints.gammaBreakECDT (u.consts k) (blobIn u b) (dtIn u t) (u.length r)
        = Constraints.gammaBreakECDT k b t r := by
  have := u.l_pos; have := u.m_pos; have := u.t_pos; have := hk.c; have := hk.m_e; have := hk.e; have := hk.sigma_T
  have hs := (C103_region (u := u) hk b).2.2.2.2.1
  have hu := C103_u_dt (u := u) hk ht r (some b)
  rw [Option.map_some] at hu
  have h1 : Constraints.gammaMaxLarmor (u.consts k) (blobIn u b) = Constraints.gammaMaxLarmor k b := by
    simp only [Constraints.gammaMaxLarmor, blobIn, Units.consts, Consts.mec2, Units.length, Units.field]
    field_simp
  refine ⟨h1, ?_, ?_, ?_, ?_, ?_, ?_, ?_⟩
  · unfold Constraints.gammaMaxBallistic
    rw [h1]
    rfl
  · unfold Constraints.gammaMaxSynch
    congr 1
    simp only [blobIn, Units.consts, Units.field]
    field_simp
  · unfold Constraints.gammaMaxSSC
    congr 1
    rw [hs]
    generalize b.u_ph_synch k = s
    simp only [blobIn, Units.consts, Units.field, Units.energyDensity]
    rcases eq_or_ne s 0 with rfl | h
    · simp
    · field_simp
  · simp only [Constraints.gammaBreakSynch, blobIn, Units.consts, Consts.mec2, Units.length, Units.field]
    field_simp
  · unfold Constraints.gammaBreakSSC
    rw [hs]
    generalize b.u_ph_synch k = s
    simp only [blobIn, Units.consts, Consts.mec2, Units.length, Units.energyDensity]
    rcases eq_or_ne s 0 with rfl | h
    · simp
    · field_simp

  · unfold Constraints.gammaMaxECDT
    congr 1
    rw [hu]
    generalize DT.u k t r (some b) = s
    simp only [blobIn, Units.consts, Units.field, Units.energyDensity]
    rcases eq_or_ne s 0 with rfl | h
    · simp
    · field_simp
  · unfold Constraints.gammaBreakECDT
    rw [hu]
    generalize DT.u k t r (some b) = s
    simp only [blobIn, Units.consts, Consts.mec2, Units.length, Units.energyDensity]
    rcases eq_or_ne s 0 with rfl | h
    · simp
    · field_simp

/-! ### thermal spectra -/

theorem thermal (hk : k.Pos) (nu T : ℝ) :
    planck (u.consts k) (u.frequency nu) (u.θ * T)
      = u.m ^ 2 / u.t ^ 2 * planck k nu T := by
  have := u.l_pos; have := u.m_pos; have := u.t_pos; have := u.θ_pos; have := hk.c; have := hk.h; have := hk.k_B
  have e : (u.consts k).h * u.frequency nu / ((u.consts k).k_B * (u.θ * T)) = k.h * nu / (k.k_B * T) := by
    simp only [Units.consts, Units.frequency]
    rcases eq_or_ne T 0 with rfl | h
    · simp
    · field_simp
  unfold planck
  rw [e]
  generalize Real.exp _ - 1 = x
  simp only [Units.consts, Units.frequency]
  rcases eq_or_ne x 0 with rfl | h
  · simp
  · field_simp

/-- C103: thermal spectrum of the torus -/
theorem C103_dt_sed (hk : k.Pos) {d_L : ℝ} (hd : 0 < d_L) {t : DT} (hR : 0 < t.R_dt) (hT : 0 < t.T_dt) (nu z : ℝ) :
    DT.sedFlux (u.consts k) (dtIn u t) (u.frequency nu) z (u.length d_L)
      = u.flux (DT.sedFlux k t nu z d_L) := by
  have := u.l_pos; have := u.m_pos; have := u.t_pos; have := u.θ_pos; have := hk.sigma_sb
  have e : u.frequency nu * (1 + z) = u.frequency (nu * (1 + z)) := by unfold Units.frequency; ring
  unfold DT.sedFlux DT.bbNormSed DT.bbSed dtIn
  dsimp only
  rw [e, thermal hk, length_div]
  generalize planck k _ _ = p
  simp only [Units.consts, Units.flux, Units.luminosity, Units.frequency, Units.length]
  field_simp

theorem rpow_scale {c : ℝ} (hc : 0 < c) (x p : ℝ) : (c * x) ^ p = c ^ p * x ^ p := by
  rcases lt_or_ge x 0 with h | h
  · rw [Real.rpow_def_of_neg (mul_neg_of_pos_of_neg hc h), Real.rpow_def_of_neg h, Real.rpow_def_of_pos hc,
      Real.log_mul hc.ne' h.ne, add_mul, Real.exp_add, mul_assoc]
  · exact Real.mul_rpow hc.le h

theorem temperature (hk : k.Pos) (R M M_dot R_in : ℝ) :
    SSDisk.T (u.consts k) (u.length R) (u.mass M) (u.m ^ 2 / u.t * M_dot) (u.length R_in)
      = u.θ * SSDisk.T k R M M_dot R_in := by
  have := u.l_pos; have := u.m_pos; have := u.t_pos; have hθ := u.θ_pos; have := hk.sigma_sb
  unfold SSDisk.T
  rw [length_div]
  generalize 1 - √(R_in / R) = φ
  have e : 3 * (u.consts k).G * u.mass M * (u.m ^ 2 / u.t * M_dot) * φ
        / (8 * Real.pi * u.length R ^ 3 * (u.consts k).sigma_sb)
      = u.θ ^ 4 * (3 * k.G * M * M_dot * φ / (8 * Real.pi * R ^ 3 * k.sigma_sb)) := by
    simp only [Units.consts, Units.length, Units.mass]
    rcases eq_or_ne R 0 with rfl | h
    · simp
    · field_simp
  dsimp only
  rw [e, rpow_scale (by positivity), ← Real.rpow_natCast, ← Real.rpow_mul hθ.le]
  norm_num

/-- C103: the sum of the thermal spectra of the rings of the disk -/
theorem C103_rings (hk : k.Pos) {d_L : ℝ} (hd : 0 < d_L) (nu z M M_dot R_in R_out mu_s : ℝ) :
    SSDisk.multiTSed (u.consts k) (u.frequency nu) z (u.mass M) (u.m ^ 2 / u.t * M_dot) (u.length R_in) (u.length R_out)
        (u.length d_L) mu_s
      = u.flux (SSDisk.multiTSed k nu z M M_dot R_in R_out d_L mu_s) := by
  have := u.l_pos; have := u.m_pos; have := u.t_pos
  have e : u.frequency nu * (1 + z) = u.frequency (nu * (1 + z)) := by unfold Units.frequency; ring
  have g : linspace (u.length R_in) (u.length R_out) 100 = (linspace R_in R_out 100).map (· * u.l ^ 2) := by
    rw [TargetField.linspace_stretch, at', at']
  have e2 : ∀ R p : ℝ, u.length R / u.length d_L ^ 2 * (u.m ^ 2 / u.t ^ 2 * p)
      = u.m ^ 2 / (u.t ^ 2 * u.l ^ 2) * (R / d_L ^ 2 * p) := fun R p => by
    unfold Units.length
    field_simp
  unfold SSDisk.multiTSed
  simp only [e, g, stretch, temperature hk, thermal hk, e2, over_scale homogeneous_trapz]
  generalize over trapz _ _ = J
  simp only [Units.flux, Units.frequency]
  field_simp

theorem mdot (hk : k.Pos) (d : SSDisk) : (diskIn u d).m_dot (u.consts k) = u.m ^ 2 / u.t * d.m_dot k := by
  have := u.l_pos; have := u.m_pos; have := u.t_pos; have := hk.c
  simp only [SSDisk.m_dot, diskIn, Units.consts, Units.luminosity]
  rcases eq_or_ne d.eta 0 with h | h
  · simp [h]
  · field_simp

/-- C103: thermal spectrum of the disk, normalised on a grid of frequencies in Hz -/
theorem C103_disk_sed (hk : k.Pos) (ht : u.t = 1) {d_L : ℝ} (hd : 0 < d_L) (d : SSDisk) (nu z mu_s : ℝ) :
    SSDisk.sedFlux (u.consts k) (diskIn u d) nu z (u.length d_L) mu_s = u.flux (SSDisk.sedFlux k d nu z d_L mu_s) := by
  have := u.l_pos; have := u.m_pos
  have e1 : ∀ nu, SSDisk.multiTSed (u.consts k) nu z (u.mass d.M_BH) (u.m ^ 2 / u.t * d.m_dot k) (u.length d.R_in)
      (u.length d.R_out) (u.length d_L) mu_s
      = u.flux (SSDisk.multiTSed k nu z d.M_BH (d.m_dot k) d.R_in d.R_out d_L mu_s) := fun nu => by
    have := C103_rings (u := u) hk hd nu z d.M_BH (d.m_dot k) d.R_in d.R_out mu_s
    rwa [frequency_one ht] at this
  unfold SSDisk.sedFlux SSDisk.multiTNormSed SSDisk.multiTLum
  rw [mdot hk]
  simp only [diskIn, e1]
  have e2 : (SSDisk.nuGrid.map fun nu => u.flux (SSDisk.multiTSed k nu z d.M_BH (d.m_dot k) d.R_in d.R_out d_L mu_s) / nu)
      = (SSDisk.nuGrid.map fun nu => SSDisk.multiTSed k nu z d.M_BH (d.m_dot k) d.R_in d.R_out d_L mu_s / nu).map
        (u.m ^ 2 / u.t ^ 3 * ·) := by
    rw [List.map_map]
    apply List.map_congr_left
    intro x _
    simp only [Function.comp, Units.flux]
    ring
  rw [e2, C33_trapz_scale]
  generalize trapz _ _ = J
  generalize SSDisk.multiTSed _ _ _ _ _ _ _ _ _ = S
  simp only [Units.flux, Units.luminosity, Units.length, ht]
  rcases eq_or_ne J 0 with rfl | h
  · simp
  · field_simp

end Verif.UnitSystem
