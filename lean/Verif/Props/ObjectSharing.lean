import Verif.Props.Objects
import Verif.Props.Disk
import Verif.Props.Limits

/- C89 continued: when rebuilding succeeds, the exceptions, the attributes of the disk, objects and values -/

noncomputable section

namespace Verif.Objects

open MathUtils Spectra Region Targets

variable {k : Consts} {distance : ℝ → ℝ} {h h' : Heap}

/-! ### When rebuilding succeeds -/

/-- the process has the distance its constructor asks for -/
def Proc.Placed (h : Heap) : Proc → Prop
  | .ec e => IsDisk h.targets[e.target]? → e.r ≠ none
  | .abs a => (∃ t, a.target = .target t) → a.r ≠ none
  | _ => True

theorem exists_forall₂ {α β : Type} {R : α → β → Prop} : ∀ {l : List α}, (∀ x ∈ l, ∃ y, R x y) → ∃ l', List.Forall₂ R l l'
  | [], _ => ⟨[], .nil⟩
  | x :: l, hx => by
    obtain ⟨y, hy⟩ := hx x (List.mem_cons_self ..)
    obtain ⟨l', hl⟩ := exists_forall₂ fun z hz => hx z (List.mem_cons_of_mem _ hz)
    exact ⟨y :: l', .cons hy hl⟩

theorem setMu_some {t : TargetObj} {e : ECObj} (he : IsDisk (some t) → e.r ≠ none) (n : ℕ) : ∃ e', e.setMu t n = some e' := by
  cases t with
  | disk d =>
    cases hr : e.r with
    | none => exact absurd hr (he trivial)
    | some r => exact ⟨{ e with mu_size := n, mu := SSDisk.muFromRTilde d.R_in_tilde d.R_out_tilde (r / d.R_g) 100 }, by
      simp only [ECObj.setMu, hr, Option.map_some]⟩
  | _ => exact ⟨_, rfl⟩

/-- C89: after a tame program everything can be built anew as soon as no Doppler factor has been assigned a value the
constructor refuses and the processes on extended targets have a distance -/
theorem C89_rebuildable {ops : List Op} (hrun : run k distance Heap.start ops = some h)
    (hh : Tame k distance Heap.start ops) (hδ : ∀ b ∈ h.blobs, 0 < b.delta_D) (hp : ∀ p ∈ h.procs, p.Placed h) :
    ∃ h', Rebuilt k distance h h' := by
  have hi := inv_run (inv_start k) hh hrun
  obtain ⟨blobs, hb⟩ := exists_forall₂ (R := fun b b' => BlobObj.new distance b = some b') (l := h.blobs) fun b hb =>
    ⟨{ b with d_L := distance b.z }, by unfold BlobObj.new; rw [if_neg (not_le.2 (hδ b hb))]⟩
  obtain ⟨targets, ht⟩ := exists_forall₂ (R := fun t t' => t.again k = some t') (l := h.targets) fun t ht => by
    have hf := hi.targets t ht
    cases t with
    | blr t =>
      have hf' : BLRObj.new k t.L_disk t.xi_line t.line t.R_line = some t := hf
      exact ⟨.blr t, by simp only [TargetObj.again, TargetArgs.new, hf', Option.map_some]⟩
    | _ => exact ⟨_, rfl⟩
  have hpr : ∀ p ∈ h.procs, ∃ p', p.again ⟨h.dists, blobs, targets, []⟩ = some p' := by
    intro p hp'
    have hf := hi.procs p hp'
    have hpl := hp p hp'
    cases p with
    | synch b s I => exact ⟨_, rfl⟩
    | proton b I => exact ⟨_, rfl⟩
    | ssc b s I => exact ⟨_, rfl⟩
    | abs a =>
      obtain ⟨target, r, z, mu_s, mu_size, mu, phi_size, phi, l_size⟩ := a
      cases r with
      | some r => cases target <;> exact ⟨_, rfl⟩
      | none =>
        cases target with
        | blob b => exact ⟨_, rfl⟩
        | target t => exact absurd rfl (hpl ⟨t, rfl⟩)
    | ec e =>
      rcases forall₂_get ht e.target with ⟨x, -⟩ | ⟨t, t', x, y, hy⟩
      · have := hf.2.2
        rw [List.getElem?_eq_none_iff] at x
        omega
      · have hal := again_alike (hi.targets t (List.mem_of_getElem? x)) hy
        have hdisk : IsDisk (some t') → e.r ≠ none := by
          intro hd
          apply hpl
          rw [x]
          cases t <;> cases t' <;> trivial
        obtain ⟨e1, h1⟩ := setMu_some (e := ⟨e.blob, e.target, e.r, e.integrator, 0, [], 0, []⟩) hdisk 100
        have r1 : e1.r = e.r := (fine_setMu (h := ⟨h.dists, blobs, targets, []⟩) (by exact y) h1).2.2.2.2.1
        obtain ⟨e2, h2⟩ := setMu_some (t := t') (e := e1.setPhi 50) (by simp only [ECObj.setPhi]; rw [r1]; exact hdisk) e.mu_size
        refine ⟨.ec (e2.setPhi e.phi_size), ?_⟩
        simp only [Proc.again, y, Option.bind_eq_bind, Option.bind_some, ECObj.new, h1, Option.map_some, h2]
  obtain ⟨procs, hpp⟩ := exists_forall₂ hpr
  refine ⟨⟨h.dists, blobs, targets, procs⟩, rfl, hb, ht, ?_⟩
  refine hpp.imp fun p p' hq => ?_
  cases p <;> exact hq

/-! ### The exceptions -/

/-- C89: a Doppler factor that the constructor refuses can be assigned; then the blob cannot be built anew -/
theorem C89_doppler_violated {a : ℕ} {b : BlobObj} (hb : h.blobs[a]? = some b) {x : ℝ} (hx : x ≤ 0) :
    ∃ h1, step k distance h (.setBlob a (.delta_D x)) = some h1 ∧ ¬ ∃ h2, Rebuilt k distance h1 h2 := by
  refine ⟨{ h with blobs := h.blobs.set a ((BlobSet.delta_D x).run b) }, by simp only [step, hb, Option.map_some], ?_⟩
  rintro ⟨h2, hr⟩
  have hlt := lt_of_getElem? hb
  rcases forall₂_get hr.blobs a with ⟨h1, -⟩ | ⟨b1, b2, h1, -, h3⟩
  · simp [hlt] at h1
  · simp only [List.getElem?_set_self hlt, Option.some.injEq] at h1
    subst h1
    have := (new_blob h3).2
    simp only [BlobSet.run] at this
    linarith

/-- C89: assigning the temperature of a torus leaves the photon energy as it was, although a torus built with the new
temperature has photons of another energy -/
theorem C89_torus_violated (hk : k.Pos) {L xi T T' : ℝ} {R : Option ℝ} (hT : T' ≠ T) {t' : DTObj}
    (ha : TargetObj.again k (TargetSet.run (.dt (DTObj.new k L xi T R)) (.T_dt T')) = some (.dt t')) :
    ∃ t : DTObj, TargetSet.run (.dt (DTObj.new k L xi T R)) (.T_dt T') = .dt t ∧ t.T_dt = T'
      ∧ t.epsilon_dt = 27 / 10 * (k.k_B * T / k.mec2) ∧ t'.epsilon_dt ≠ t.epsilon_dt := by
  refine ⟨_, rfl, rfl, rfl, ?_⟩
  cases ha
  have h1 := hk.k_B; have h2 := hk.m_e; have h3 := hk.c
  have hm : 0 < k.mec2 := by unfold Consts.mec2; positivity
  simp only [DTObj.new]
  intro e
  apply hT
  field_simp at e
  exact e

/-- C89: assigning the line of a broad-line region leaves wavelength and photon energy as they were -/
theorem C89_line_violated {L xi R : ℝ} {line line' : String} {t : BLRObj} (ht : BLRObj.new k L xi line R = some t) :
    ∃ u : BLRObj, TargetSet.run (.blr t) (.line line') = .blr u ∧ u.line = line'
      ∧ u.lambda_line = t.lambda_line ∧ u.epsilon_line = t.epsilon_line
      ∧ BLR.linesDictionary.lookup line = some u.lambda_line := by
  refine ⟨_, rfl, rfl, rfl, rfl, ?_⟩
  unfold BLRObj.new at ht
  cases hl : BLR.linesDictionary.lookup line with
  | none => rw [hl] at ht; cases ht
  | some l => rw [hl] at ht; cases ht; rfl

/-- C89: an `ExternalCompton` moved from a disk to another kind of target keeps integrating over the directions of the
disk, all of them forward, while one built on the new target integrates over all directions -/
theorem C89_directions_violated {d : DiskObj} (h0 : 0 < d.R_in_tilde) (h1 : d.R_in_tilde < d.R_out_tilde) (hg : 0 < d.R_g)
    {blob a b : ℕ} {r : ℝ} (hr : 0 < r) {I : List ℝ → List ℝ → ℝ} {e : ECObj}
    (he : ECObj.new (.disk d) blob a (some r) I = some e) {t : TargetObj} (ht : ¬ IsDisk (some t))
    (hb : h.targets[b]? = some t) :
    ∃ e1 e2 : ECObj, ProcSet.run h (.ec e) (.target b) = some (.ec e1) ∧ ECObj.new t blob b (some r) I = some e2
      ∧ e1.blob = e2.blob ∧ e1.target = e2.target ∧ e1.r = e2.r ∧ e1.integrator = e2.integrator ∧ e1.phi = e2.phi
      ∧ (∀ m ∈ e1.mu, 0 < m) ∧ (-1 : ℝ) ∈ e2.mu ∧ e1.mu ≠ e2.mu := by
  simp only [ECObj.new, ECObj.setMu, Option.map_some, Option.some.injEq] at he
  subst he
  have hpos : ∀ m ∈ SSDisk.muFromRTilde d.R_in_tilde d.R_out_tilde (r / d.R_g) 100, 0 < m := fun m hm =>
    ((SSDisk.C49_grid h0 h1 (by positivity) (by norm_num)).2.2.1 m hm).2.1
  have hm : (-1 : ℝ) ∈ linspace (-1) 1 100 := List.mem_of_mem_head? (Compton.linspace_ends (by norm_num)).1
  have hne : SSDisk.muFromRTilde d.R_in_tilde d.R_out_tilde (r / d.R_g) 100 ≠ linspace (-1) 1 100 := by
    intro hc
    have h2 := hpos (-1) (by rw [hc]; exact hm)
    linarith
  refine ⟨(ECObj.mk blob b (some r) I 100 (SSDisk.muFromRTilde d.R_in_tilde d.R_out_tilde (r / d.R_g) 100) 0 []).setPhi 50,
    (ECObj.mk blob b (some r) I 100 (linspace (-1) 1 100) 0 []).setPhi 50, ?_, ?_, rfl, rfl, rfl, rfl, rfl, hpos, hm, hne⟩
  · simp only [ProcSet.run, if_pos (lt_of_getElem? hb)]
    rfl
  · cases t with
    | disk d => exact absurd trivial ht
    | _ => rfl

/-- C89: after an assignment to the redshift the flux is that of the old distance -/
theorem C89_redshift_violated {ops : List Op} (hrun : run k distance Heap.start ops = some h)
    (hh : Tame k distance Heap.start ops) (hr : Rebuilt k distance h h')
    (hd : ∀ b ∈ h.blobs, 0 < b.d_L ∧ 0 < distance b.z) {p : ℕ} {nu v : ℝ} {b : Blob} (hb : h.source p = some b)
    (hz : b.d_L ≠ distance b.z) (hv : h'.ask k p nu = some v) (h0 : v ≠ 0) : h.ask k p nu ≠ h'.ask k p nu := by
  have h1 := (C89_redshift hrun hh hr (fun b hb => ⟨(hd b hb).1.ne', (hd b hb).2.ne'⟩) p nu).2.2 b hb
  obtain ⟨i, -, hi⟩ := Option.bind_eq_some_iff.1 hb
  obtain ⟨o, ho, h2, h3⟩ := blob_mem hi
  have h4 := hd o ho
  rw [← h2, ← h3] at h4
  rw [h1, hv, Option.map_some]
  intro hc
  have h5 : (distance b.z / b.d_L) ^ 2 = 1 := by
    have := Option.some.inj hc
    exact mul_right_cancel₀ h0 (by rw [this, one_mul])
  rw [pow_eq_one_iff_of_nonneg (div_pos h4.2 h4.1).le (by norm_num), div_eq_one_iff_eq h4.1.ne'] at h5
  exact hz h5.symm

/-! ### The attributes of the disk -/

/-- the disk of the value model with the same parameters -/
def DiskObj.value (d : DiskObj) : SSDisk := ⟨d.M_BH, d.L_disk, d.eta, d.R_in, d.R_out⟩

/-- C89: a disk as built, in either convention for the radii, answers with the functions of its parameters -/
theorem C89_disk (hk : k.Pos) {M L eta : ℝ} (hM : 0 < M) {R_in R_out : Len} {units : Bool} {d : DiskObj}
    (hd : DiskObj.new k M L eta R_in R_out units = some d) (R r nu z mu_s : ℝ) (b : Option Blob) :
    d.M_BH = M ∧ d.L_disk = L ∧ d.eta = eta
      ∧ d.R_in_tilde = d.value.R_in_tilde k ∧ d.R_out_tilde = d.value.R_out_tilde k
      ∧ d.T k R = SSDisk.T k R M (d.value.m_dot k) d.R_in
      ∧ d.phiDisk R = SSDisk.phiDisk (d.value.R_in_tilde k) R
      ∧ d.sedFlux k distance nu z mu_s = d.value.sedFlux k nu z (distance z) mu_s
      ∧ d.u k r b = d.value.u k r b := by
  have h1 := hk.G; have h2 := hk.c
  have hg : k.G * M / k.c ^ 2 ≠ 0 := by positivity
  unfold DiskObj.new at hd
  cases units
  · cases R_in <;> cases R_out <;> cases hd
    refine ⟨rfl, rfl, rfl, rfl, rfl, rfl, rfl, rfl, ?_⟩
    cases b <;> rfl
  · cases R_in <;> cases R_out <;> cases hd
    have e1 : ∀ x : ℝ, x * (k.G * M / k.c ^ 2) / (k.G * M / k.c ^ 2) = x := fun x => mul_div_cancel_right₀ x hg
    refine ⟨rfl, rfl, rfl, (e1 _).symm, (e1 _).symm, rfl, ?_, rfl, ?_⟩
    · simp only [DiskObj.phiDisk, SSDisk.phiDisk, SSDisk.R_in_tilde, SSDisk.R_g, DiskObj.value, e1]
    · simp only [DiskObj.u, SSDisk.u, SSDisk.uIntegrand, SSDisk.R_in_tilde, SSDisk.R_out_tilde, SSDisk.R_g, DiskObj.value,
        e1]
      cases b <;> rfl

/-- C89: which answers of a disk follow an assignment.  `d1` is the disk after the assignment, `d2` one built with the
new parameters: the photon energy always follows, temperature and SED follow the mass and the radii. -/
theorem C89_disk_follows (hk : k.Pos) {M L eta : ℝ} (hM : 0 < M) {R_in R_out : Len} {units : Bool} {d d1 d2 : DiskObj}
    (hd : DiskObj.new k M L eta R_in R_out units = some d) {s : TargetSet} (h1 : s.run (.disk d) = .disk d1)
    (h2 : TargetObj.again k (.disk d1) = some (.disk d2)) (R nu z mu_s : ℝ) :
    d1.epsilon k R = d2.epsilon k R
      ∧ ((∀ x, s ≠ .L_disk x) → (∀ x, s ≠ .eta x) →
        d1.T k R = d2.T k R ∧ d1.sedFlux k distance nu z mu_s = d2.sedFlux k distance nu z mu_s) := by
  cases h2
  have hm := C89_disk (distance := distance) hk hM hd 1 1 1 1 1 none
  have hdot : d.m_dot = d.L_disk / (d.eta * k.c ^ 2) := by
    unfold DiskObj.new at hd
    cases units <;> cases R_in <;> cases R_out <;> cases hd <;> rfl
  refine ⟨rfl, fun hL he => ?_⟩
  cases s <;> cases h1 <;> first
    | exact absurd rfl (hL _)
    | exact absurd rfl (he _)
    | (simp only [DiskObj.T, DiskObj.sedFlux, hdot, and_self])

/-- C89: the temperature does not follow the luminosity or the efficiency: it stays behind by these factors -/
theorem C89_disk_temperature (hk : k.Pos) {M L eta : ℝ} (hM : 0 < M) (hL : 0 < L) (he : 0 < eta) {R_in R_out : Len}
    {units : Bool} {d : DiskObj} (hd : DiskObj.new k M L eta R_in R_out units = some d) (h0 : 0 < d.R_in) {R x : ℝ}
    (hR : d.R_in ≤ R) (hx : 0 < x) :
    (∀ d1 d2, TargetSet.run (.disk d) (.L_disk x) = .disk d1 → TargetObj.again k (.disk d1) = some (.disk d2) →
        d1.T k R = d.T k R ∧ d2.T k R = (x / L) ^ (1 / 4 : ℝ) * d1.T k R)
      ∧ ∀ d1 d2, TargetSet.run (.disk d) (.eta x) = .disk d1 → TargetObj.again k (.disk d1) = some (.disk d2) →
        d1.T k R = d.T k R ∧ d2.T k R = (eta / x) ^ (1 / 4 : ℝ) * d1.T k R := by
  have hs : d.M_BH = M ∧ d.L_disk = L ∧ d.eta = eta ∧ d.m_dot = L / (eta * k.c ^ 2) := by
    unfold DiskObj.new at hd
    cases units <;> cases R_in <;> cases R_out <;> cases hd <;> exact ⟨rfl, rfl, rfl, rfl⟩
  obtain ⟨e1, e2, e3, e4⟩ := hs
  have h1 := hk.G; have h2 := hk.c; have h3 := hk.sigma_sb; have h4 := Real.pi_pos
  have hRp : 0 < R := lt_of_lt_of_le h0 hR
  have hphi : 0 ≤ 1 - √(d.R_in / R) := by
    rw [sub_nonneg]
    exact Real.sqrt_le_one.2 ((div_le_one hRp).2 hR)
  have key : ∀ {m f : ℝ}, 0 ≤ m → 0 ≤ f →
      SSDisk.T k R M (f * m) d.R_in = f ^ (1 / 4 : ℝ) * SSDisk.T k R M m d.R_in := by
    intro m f hm hf
    unfold SSDisk.T
    rw [← Real.mul_rpow hf (by positivity)]
    congr 1
    ring
  have hm0 : 0 ≤ L / (eta * k.c ^ 2) := by positivity
  constructor
  · intro d1 d2 h5 h6
    cases h5; cases h6
    refine ⟨rfl, ?_⟩
    simp only [DiskObj.T, e1, e3, e4]
    rw [← key hm0 (by positivity)]
    congr 1
    field_simp
  · intro d1 d2 h5 h6
    cases h5; cases h6
    refine ⟨rfl, ?_⟩
    simp only [DiskObj.T, e1, e2, e4]
    rw [← key hm0 (by positivity)]
    congr 1
    field_simp

/-! ### Objects and values -/

/-- the target of the value model -/
def TargetObj.value : TargetObj → Compton.Target
  | .cmb t => .cmb t
  | .ps t => .ps t
  | .disk d => .disk d.value
  | .blr t => .blr ⟨t.L_disk, t.xi_line, t.epsilon_line, t.R_line⟩
  | .dt t => .dt ⟨t.L_disk, t.xi_dt, t.T_dt, t.R_dt⟩

/-- the target of the value model of absorption -/
def TargetObj.absorber : TargetObj → Absorption.Target
  | .cmb _ => .other
  | .ps t => .ps t
  | .disk d => .disk d.value
  | .blr t => .blr ⟨t.L_disk, t.xi_line, t.epsilon_line, t.R_line⟩
  | .dt t => .dt ⟨t.L_disk, t.xi_dt, t.T_dt, t.R_dt⟩

/-- C89: after a tame program an `ExternalCompton` answers like the value of its parameters, on which the other
properties are stated; the photons of a broad-line region have the energy of its line -/
theorem C89_values {ops : List Op} (hrun : run k distance Heap.start ops = some h)
    (hh : Tame k distance Heap.start ops) {p : ℕ} {e : ECObj} (hp : h.procs[p]? = some (.ec e)) {b : Blob}
    (hb : h.blob e.blob = some b) {t : TargetObj} (ht : h.targets[e.target]? = some t) {r : ℝ} (hr : e.r = some r)
    (nu : ℝ) :
    h.ask k p nu = (Compton.EC.mk b t.value r e.mu e.mu_size e.phi e.integrator).sedFlux k nu
      ∧ e.phi = linspace 0 (2 * Real.pi) e.phi_size
      ∧ (∀ u, t = .blr u → BLR.new k u.L_disk u.xi_line u.line u.R_line
          = some ⟨u.L_disk, u.xi_line, u.epsilon_line, u.R_line⟩)
      ∧ ((∀ d, t ≠ .disk d) → e.mu = linspace (-1) 1 e.mu_size) := by
  have hi := inv_run (inv_start k) hh hrun
  have hf := hi.targets t (List.mem_of_getElem? ht)
  have hq := hi.procs _ (List.mem_of_getElem? hp)
  refine ⟨?_, hq.1, ?_, fun hd => hq.2.1.resolve_left fun hc => ?_⟩
  · simp only [Heap.ask, hp, Heap.sedEC, ht, Option.bind_eq_bind, Option.bind_some]
    cases t with
    | cmb t => simp only [Heap.sedCMB, hb, Option.bind_eq_bind, Option.bind_some]; rfl
    | ps t => simp only [Heap.sedPS, hb, hr, Option.bind_eq_bind, Option.bind_some]; rfl
    | disk t => simp only [Heap.sedDisk, hb, hr, Option.bind_eq_bind, Option.bind_some]; rfl
    | blr t => simp only [Heap.sedBLR, hb, hr, Option.bind_eq_bind, Option.bind_some]; rfl
    | dt t =>
      have he : DTObj.new k t.L_disk t.xi_dt t.T_dt (some t.R_dt) = t := hf
      have he' : t.epsilon_dt = DT.epsilon_dt k ⟨t.L_disk, t.xi_dt, t.T_dt, t.R_dt⟩ := by
        conv_lhs => rw [← he]
        rfl
      simp only [Heap.sedDT, hb, hr, Option.bind_eq_bind, Option.bind_some, Compton.EC.sedFlux, TargetObj.value, he']
  · rintro u rfl
    have he : BLRObj.new k u.L_disk u.xi_line u.line u.R_line = some u := hf
    unfold BLRObj.new at he
    unfold BLR.new
    cases hl : BLR.linesDictionary.lookup u.line with
    | none => rw [hl] at he; cases he
    | some l =>
      rw [hl] at he
      have h1 := congrArg BLRObj.epsilon_line (Option.some.inj he)
      simp only at h1
      simp only [Option.map_some, h1]
  · obtain ⟨d, h1⟩ := isDisk_iff.1 hc
    rw [ht] at h1
    exact hd d (Option.some.inj h1)

/-- C89: the same for an `Absorption` -/
theorem C89_absorption_values {ops : List Op} (hrun : run k distance Heap.start ops = some h)
    (hh : Tame k distance Heap.start ops) {p : ℕ} {a : AbsObj} (hp : h.procs[p]? = some (.abs a)) (nu : ℝ) :
    a.mu = linspace (-1) 1 a.mu_size ∧ a.phi = linspace 0 (2 * Real.pi) a.phi_size
      ∧ (∀ i b, a.target = .blob i → h.blob i = some b →
        h.ask k p nu = Absorption.tau k ⟨.blob b, a.r, a.z, a.mu_s, a.mu, a.phi, a.l_size⟩ nu)
      ∧ ∀ i t r, a.target = .target i → h.targets[i]? = some t → a.r = some r →
        h.ask k p nu = Absorption.tau k ⟨t.absorber, a.r, a.z, a.mu_s, a.mu, a.phi, a.l_size⟩ nu := by
  have hi := inv_run (inv_start k) hh hrun
  have hq := hi.procs _ (List.mem_of_getElem? hp)
  refine ⟨hq.2, hq.1, ?_, ?_⟩
  · intro i b h1 h2
    simp only [Heap.ask, hp, Heap.tau, h1, h2, Option.bind_eq_bind, Option.bind_some, Option.map_some]
    rfl
  · intro i t r h1 h2 h3
    have hf := hi.targets t (List.mem_of_getElem? h2)
    simp only [Heap.ask, hp, Heap.tau, h1, h2, h3, Option.bind_eq_bind, Option.bind_some]
    by_cases hm : a.mu_s = 1
    · rw [if_pos hm]
      cases t with
      | dt t =>
        have he : DTObj.new k t.L_disk t.xi_dt t.T_dt (some t.R_dt) = t := hf
        have he' : t.epsilon_dt = DT.epsilon_dt k ⟨t.L_disk, t.xi_dt, t.T_dt, t.R_dt⟩ := by
          conv_lhs => rw [← he]
          rfl
        simp only [Absorption.tau, TargetObj.absorber, if_pos hm, he', Option.getD_some]
      | _ => simp only [Absorption.tau, TargetObj.absorber, if_pos hm, Option.getD_some, DiskObj.value]
    · rw [if_neg hm]
      cases t with
      | dt t =>
        have he : DTObj.new k t.L_disk t.xi_dt t.T_dt (some t.R_dt) = t := hf
        have he' : t.epsilon_dt = DT.epsilon_dt k ⟨t.L_disk, t.xi_dt, t.T_dt, t.R_dt⟩ := by
          conv_lhs => rw [← he]
          rfl
        simp only [Absorption.tau, TargetObj.absorber, if_neg hm, he', Option.getD_some]
      | _ => simp only [Absorption.tau, TargetObj.absorber, if_neg hm, Option.getD_some]

/-! ### Examples -/

/-- a user's program: two blobs on the default distribution, a torus, a broad-line region, a disk; processes on them;
then a fit moves most of the parameters -/
def demoOps : List Op :=
  [.newBlob ⟨1, 1, 0, 10, 10, 1, 0, none, 1, 200, 200⟩,
   .newBlob ⟨2, 1, 0, 20, 20, 1, 0, none, 1, 200, 200⟩,
   .newTarget (.dt 1 1 1 none),
   .newTarget (.disk 1 1 1 (.number 6) (.number 200) true),
   .newTarget (.ps 1 1),
   .newProc (.synch 0 false trapz),
   .newProc (.ec 1 0 (some 1) trapz),
   .newProc (.ec 1 1 (some 1) trapz),
   .newProc (.abs (.target 2) (some 1) 1 1),
   .setDist 0 (.powerLaw 1 2 10 1000),
   .setBlob 0 (.B 3),
   .setBlob 1 (.setDeltaD 20 0),
   .setTarget 0 (.R_dt 7),
   .setTarget 1 (.L_disk 5),
   .setProc 1 (.setPhi 30),
   .setProc 2 (.r (some 4)),
   .setProc 3 (.mu_s 0)]

theorem demo_tame (k : Consts) (distance : ℝ → ℝ) (h : Heap) : Tame k distance h demoOps := by
  simp [demoOps, Tame, Op.Tame]

/-- the hypotheses of `C89_rebuild` and `C89_rebuildable` are met by this program -/
example (k : Consts) (distance : ℝ → ℝ) (hd : distance 1 ≠ 0) :
    ∃ h h', run k distance Heap.start demoOps = some h ∧ Rebuilt k distance h h' ∧ h.procs.length = 4
      ∧ (∀ b ∈ h.blobs, distance b.z ≠ 0) ∧ (∀ op ∈ demoOps, op.KeepsRedshift)
      ∧ ∀ p nu, h'.ask k p nu = h.ask k p nu := by
  have n1 : ¬ (10 : ℝ) ≤ 0 := by norm_num
  have n2 : ¬ (20 : ℝ) ≤ 0 := by norm_num
  have hk : ∀ op ∈ demoOps, op.KeepsRedshift := by simp [demoOps, Op.KeepsRedshift]
  have hrun : ∃ h, run k distance Heap.start demoOps = some h ∧ h.procs.length = 4 ∧ (∀ b ∈ h.blobs, b.z = 1 ∧ 0 < b.delta_D)
      ∧ ∀ p ∈ h.procs, p.Placed h := by
    simp only [demoOps, run, step, BlobObj.new, TargetArgs.new, DiskObj.new, ProcArgs.new, ECObj.new, ECObj.setMu,
      AbsObj.new, Heap.start, ProcSet.run, n1, n2, if_false, if_true, Option.map_some, Option.bind_some,
      Option.bind_eq_bind, List.nil_append, List.cons_append, List.getElem?_cons_zero, List.getElem?_cons_succ,
      List.set_cons_zero, List.set_cons_succ, BlobSet.run, TargetSet.run]
    refine ⟨_, rfl, rfl, ?_, ?_⟩
    · intro b hb
      simp only [List.mem_cons, List.not_mem_nil, or_false] at hb
      rcases hb with rfl | rfl
      · norm_num
      · refine ⟨rfl, ?_⟩
        have h1 : √(1 - 1 / (20 : ℝ) ^ 2) < 1 := by rw [Real.sqrt_lt' one_pos]; norm_num
        have h2 : Real.cos (0 * Real.pi / 180) = 1 := by simp
        simp only [h2]
        have : 0 < 1 - √(1 - 1 / (20 : ℝ) ^ 2) * 1 := by linarith
        positivity
    · intro p hp
      simp only [List.mem_cons, List.not_mem_nil, or_false] at hp
      rcases hp with rfl | rfl | rfl | rfl <;> simp [Proc.Placed, ECObj.setPhi, AbsObj.setPhi, AbsObj.setMu]
  obtain ⟨h, hr, hl, hb, hp⟩ := hrun
  obtain ⟨h', hh⟩ := C89_rebuildable hr (demo_tame k distance _) (fun b hb' => (hb b hb').2) hp
  have hz : ∀ b ∈ h.blobs, distance b.z ≠ 0 := fun b hb' => by rw [(hb b hb').1]; exact hd
  exact ⟨h, h', hr, hh, hl, hz, hk, fun p nu => (C89_rebuild hr (demo_tame k distance _) hk hh hz p nu).1⟩

end Verif.Objects

end
