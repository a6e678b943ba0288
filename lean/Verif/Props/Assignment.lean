import Verif.Props.Footprint

/- C90: an assignment changes the attribute it names and nothing else; the default distribution of blobs. -/

noncomputable section

namespace Verif.Objects

open MathUtils Spectra Region Targets

/-! ### Specification: objects as dictionaries of attributes -/

inductive Val where
  | real (x : ℝ)
  | real? (x : Option ℝ)
  | size (n : ℕ)
  | text (s : String)
  | flag (b : Bool)
  | array (l : List ℝ)
  | object (a : Option ℕ)
  | absTarget (t : AbsRef)
  | function (f : List ℝ → List ℝ → ℝ)

abbrev Attrs := List (String × Val)

def BlobObj.attrs (b : BlobObj) : Attrs :=
  [("R_b", .real b.R_b), ("z", .real b.z), ("d_L", .real b.d_L), ("delta_D", .real b.delta_D), ("Gamma", .real b.Gamma),
   ("B", .real b.B), ("n_e", .object (some b.n_e)), ("n_p", .object b.n_p), ("xi", .real b.xi),
   ("gamma_e_size", .size b.gamma_e_size), ("gamma_p_size", .size b.gamma_p_size)]

def TargetObj.attrs : TargetObj → Attrs
  | .cmb t => [("u_0", .real t.u_0), ("epsilon_0", .real t.epsilon_0)]
  | .ps t => [("L_0", .real t.L_0), ("epsilon_0", .real t.epsilon_0)]
  | .disk t => [("M_BH", .real t.M_BH), ("M_8", .real t.M_8), ("L_Edd", .real t.L_Edd), ("L_disk", .real t.L_disk),
      ("l_Edd", .real t.l_Edd), ("eta", .real t.eta), ("m_dot", .real t.m_dot), ("R_g", .real t.R_g),
      ("R_in", .real t.R_in), ("R_out", .real t.R_out), ("R_in_tilde", .real t.R_in_tilde),
      ("R_out_tilde", .real t.R_out_tilde), ("R_tilde", .array t.R_tilde)]
  | .blr t => [("L_disk", .real t.L_disk), ("xi_line", .real t.xi_line), ("line", .text t.line),
      ("lambda_line", .real t.lambda_line), ("epsilon_line", .real t.epsilon_line), ("R_line", .real t.R_line)]
  | .dt t => [("L_disk", .real t.L_disk), ("xi_dt", .real t.xi_dt), ("T_dt", .real t.T_dt), ("Theta", .real t.Theta),
      ("epsilon_dt", .real t.epsilon_dt), ("R_dt", .real t.R_dt)]

def Proc.attrs : Proc → Attrs
  | .synch b s I => [("blob", .object (some b)), ("ssa", .flag s), ("integrator", .function I)]
  | .proton b I => [("blob", .object (some b)), ("integrator", .function I)]
  | .ssc b s I => [("blob", .object (some b)), ("ssa", .flag s), ("integrator", .function I)]
  | .ec e => [("blob", .object (some e.blob)), ("target", .absTarget (.target e.target)), ("r", .real? e.r),
      ("integrator", .function e.integrator), ("mu_size", .size e.mu_size), ("mu", .array e.mu),
      ("phi_size", .size e.phi_size), ("phi", .array e.phi)]
  | .abs a => [("target", .absTarget a.target), ("r", .real? a.r), ("z", .real a.z), ("mu_s", .real a.mu_s),
      ("mu_size", .size a.mu_size), ("mu", .array a.mu), ("phi_size", .size a.phi_size), ("phi", .array a.phi),
      ("l_size", .size a.l_size)]

/-- the attributes after writing `ws`; an object without an attribute of that name stays as it is -/
def written (ws : Attrs) (as : Attrs) : Attrs := as.map fun p => (p.1, (ws.lookup p.1).getD p.2)

/-- the attributes a statement on a blob writes, with the values -/
def BlobSet.writes : BlobSet → Attrs
  | .R_b x => [("R_b", .real x)]
  | .z x => [("z", .real x)]
  | .delta_D x => [("delta_D", .real x)]
  | .Gamma x => [("Gamma", .real x)]
  | .B x => [("B", .real x)]
  | .n_e a => [("n_e", .object (some a))]
  | .n_p a => [("n_p", .object a)]
  | .xi x => [("xi", .real x)]
  | .gamma_e_size n => [("gamma_e_size", .size n)]
  | .gamma_p_size n => [("gamma_p_size", .size n)]
  | .setDeltaD G theta_s =>
    [("Gamma", .real G), ("delta_D", .real (1 / (G * (1 - √(1 - 1 / G ^ 2) * Real.cos (theta_s * Real.pi / 180)))))]

def TargetSet.writes : TargetSet → Attrs
  | .u_0 x => [("u_0", .real x)]
  | .epsilon_0 x => [("epsilon_0", .real x)]
  | .L_0 x => [("L_0", .real x)]
  | .M_BH x => [("M_BH", .real x)]
  | .eta x => [("eta", .real x)]
  | .R_in x => [("R_in", .real x)]
  | .R_out x => [("R_out", .real x)]
  | .L_disk x => [("L_disk", .real x)]
  | .xi_line x => [("xi_line", .real x)]
  | .line x => [("line", .text x)]
  | .R_line x => [("R_line", .real x)]
  | .xi_dt x => [("xi_dt", .real x)]
  | .T_dt x => [("T_dt", .real x)]
  | .R_dt x => [("R_dt", .real x)]

/-- a plain assignment to an attribute of a process; `set_mu`, `set_phi` and `set_l` are methods and not listed -/
def ProcSet.writes? : ProcSet → Option Attrs
  | .blob a => some [("blob", .object (some a))]
  | .ssa x => some [("ssa", .flag x)]
  | .integrator f => some [("integrator", .function f)]
  | .target a => some [("target", .absTarget (.target a))]
  | .r x => some [("r", .real? x)]
  | .z x => some [("z", .real x)]
  | .mu_s x => some [("mu_s", .real x)]
  | .setL n => some [("l_size", .size n)]
  | .setPhi n => some [("phi_size", .size n), ("phi", .array (linspace 0 (2 * Real.pi) n))]
  | .setMu _ => none

/-- `l'` is `l` but at place `a`, where attributes `ws` are written -/
def Only {α : Type} (attrs : α → Attrs) (ws : Attrs) (a : ℕ) (l l' : List α) : Prop :=
  l'.length = l.length ∧ (∀ i, i ≠ a → l'[i]? = l[i]?)
    ∧ ∃ o o', l[a]? = some o ∧ l'[a]? = some o' ∧ attrs o' = written ws (attrs o)

variable {k : Consts} {distance : ℝ → ℝ} {h h' : Heap}

theorem only_set {α : Type} {attrs : α → Attrs} {ws : Attrs} {a : ℕ} {l : List α} {o o' : α} (ho : l[a]? = some o)
    (hw : attrs o' = written ws (attrs o)) : Only attrs ws a l (l.set a o') := by
  refine ⟨by simp, fun i hi => List.getElem?_set_ne (Ne.symm hi), o, o', ho, ?_, hw⟩
  exact List.getElem?_set_self (lt_of_getElem? ho)

/-- C90: an assignment to an attribute of a blob, and `set_delta_D`, write what they name on this blob and nothing else
anywhere: not even the luminosity distance when the redshift is assigned -/
theorem C90_assign_blob {a : ℕ} {s : BlobSet} (hs : step k distance h (.setBlob a s) = some h') :
    Only BlobObj.attrs s.writes a h.blobs h'.blobs
      ∧ h'.dists = h.dists ∧ h'.targets = h.targets ∧ h'.procs = h.procs := by
  simp only [step, Option.map_eq_some_iff] at hs
  obtain ⟨b, hb, rfl⟩ := hs
  refine ⟨only_set hb ?_, rfl, rfl, rfl⟩
  cases s <;> simp [BlobObj.attrs, BlobSet.run, BlobSet.writes, written, List.lookup]

/-- C90: the same for targets; derived attributes are not refreshed -/
theorem C90_assign_target {a : ℕ} {s : TargetSet} (hs : step k distance h (.setTarget a s) = some h') :
    Only TargetObj.attrs s.writes a h.targets h'.targets
      ∧ h'.dists = h.dists ∧ h'.blobs = h.blobs ∧ h'.procs = h.procs := by
  simp only [step, Option.map_eq_some_iff] at hs
  obtain ⟨b, hb, rfl⟩ := hs
  refine ⟨only_set hb ?_, rfl, rfl, rfl⟩
  cases b <;> cases s <;> simp [TargetObj.attrs, TargetSet.run, TargetSet.writes, written, List.lookup]

/-- C90: the same for processes -/
theorem C90_assign_process {a : ℕ} {s : ProcSet} {ws : Attrs} (hw : s.writes? = some ws)
    (hs : step k distance h (.setProc a s) = some h') :
    Only Proc.attrs ws a h.procs h'.procs ∧ h'.dists = h.dists ∧ h'.blobs = h.blobs ∧ h'.targets = h.targets := by
  simp only [step, Option.bind_eq_bind, Option.bind_eq_some_iff] at hs
  obtain ⟨p, hp, p', hp', hs⟩ := hs
  cases hs
  refine ⟨only_set hp ?_, rfl, rfl, rfl⟩
  cases s with
  | setMu n => cases hw
  | target b =>
    cases hw
    cases p with
    | ec e =>
      simp only [ProcSet.run] at hp'
      split_ifs at hp'
      cases hp'
      simp [Proc.attrs, written, List.lookup]
    | _ => cases hp'; simp [Proc.attrs, written, List.lookup]
  | _ =>
    cases hw
    cases p <;> (cases hp'; simp [Proc.attrs, written, List.lookup, ECObj.setPhi, AbsObj.setPhi])

/-! ### Building -/

/-- C90: an `Absorption` on a photon target cannot be built without a distance, one on a blob can -/
theorem C90_absorption_refused {t : AbsRef} {r : Option ℝ} {z mu_s : ℝ} :
    step k distance h (.newProc (.abs t r z mu_s)) = none ↔ r = none ∧ ∃ a, t = .target a := by
  cases r <;> cases t <;> simp [step, ProcArgs.new, AbsObj.new]

/-- no statement of the program assigns to attributes of the first distribution -/
def LeavesDefault (ops : List Op) : Prop := ∀ op ∈ ops, ∀ d, op ≠ .setDist 0 d

theorem run_default {ops : List Op} (hl : LeavesDefault ops) {d : Dist} : ∀ {h : Heap}, h.dists[0]? = some d →
    run k distance h ops = some h' → h'.dists[0]? = some d := by
  induction ops with
  | nil => intro h h0 hr; cases hr; exact h0
  | cons op ops ih =>
    intro h h0 hr
    simp only [run, Option.bind_eq_some_iff] at hr
    obtain ⟨h1, hs, hr⟩ := hr
    refine ih (fun op hop => hl op (List.mem_cons_of_mem _ hop)) ?_ hr
    cases op with
    | newDist d' => cases hs; exact get_append h0
    | setDist a d' =>
      cases hs
      refine get_set_ne h0 ?_
      rintro rfl
      exact hl _ List.mem_cons_self d' rfl
    | newBlob b =>
      simp only [step, Option.map_eq_some_iff] at hs
      obtain ⟨_, -, rfl⟩ := hs
      exact h0
    | newTarget b =>
      simp only [step, Option.map_eq_some_iff] at hs
      obtain ⟨_, -, rfl⟩ := hs
      exact h0
    | newProc b =>
      simp only [step, Option.map_eq_some_iff] at hs
      obtain ⟨_, -, rfl⟩ := hs
      exact h0
    | setBlob a s =>
      simp only [step, Option.map_eq_some_iff] at hs
      obtain ⟨_, -, rfl⟩ := hs
      exact h0
    | setTarget a s =>
      simp only [step, Option.map_eq_some_iff] at hs
      obtain ⟨_, -, rfl⟩ := hs
      exact h0
    | setProc a s =>
      simp only [step, Option.bind_eq_bind, Option.bind_eq_some_iff] at hs
      obtain ⟨_, -, _, -, hs⟩ := hs
      cases hs
      exact h0

/-- C90: a blob built without `n_e`, whenever and after whatever program, has the electrons of a power law of index 2.1
between 10 and 1e5 and density 1e-13 - as long as no attribute of a distribution got this way was assigned; after
such an assignment later blobs are built with the assigned values -/
theorem C90_default {ops : List Op} {b : BlobObj} (hrun : run k distance Heap.start ops = some h) (h0 : b.n_e = 0)
    (hn : b.n_p = none) (hs : step k distance h (.newBlob b) = some h') :
    (LeavesDefault ops → ∃ blob, h'.blob h.blobs.length = some blob ∧ blob.n_e = .powerLaw (1 / 10 ^ 13) (21 / 10) 10 (10 ^ 5))
      ∧ ∀ d, h.dists[0]? = some d → ∃ blob, h'.blob h.blobs.length = some blob ∧ blob.n_e = d := by
  have key : ∀ d, h.dists[0]? = some d → ∃ blob, h'.blob h.blobs.length = some blob ∧ blob.n_e = d := by
    intro d hd
    simp only [step, BlobObj.new] at hs
    split_ifs at hs with hb
    · cases hs
    · cases hs
      refine ⟨_, by simp only [Heap.blob, List.getElem?_concat_length, h0, hn, hd, Option.bind_eq_bind, Option.bind_some]; rfl, rfl⟩
  exact ⟨fun hl => key _ (run_default hl rfl hrun), key⟩

/-- two blobs of the same program built without `n_e` have the same distribution after any assignment to its attributes -/
example (b : BlobObj) (hb : 0 < b.delta_D) (d : Dist) : ∃ h' b1 b2,
    run k distance Heap.start [.newBlob { b with n_e := 0, n_p := none }, .newBlob { b with n_e := 0, n_p := none },
      .setDist 0 d] = some h' ∧ h'.blob 0 = some b1 ∧ h'.blob 1 = some b2 ∧ b1.n_e = d ∧ b2.n_e = d := by
  have hb' : ¬ b.delta_D ≤ 0 := not_le.2 hb
  exact ⟨_, _, _, by simp only [run, step, BlobObj.new, if_neg hb', Option.map_some, Option.bind_some]; rfl, rfl, rfl, rfl, rfl⟩

example : (BlobSet.z 1).writes = [("z", .real 1)] ∧ (TargetSet.T_dt 5).writes = [("T_dt", .real 5)] := ⟨rfl, rfl⟩

end Verif.Objects

end
