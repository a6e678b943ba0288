import Verif.Model.Objects
import Verif.Props.Compton
import Verif.Props.Synchrotron

/- C89: assigning attributes of blobs, targets and processes. -/

noncomputable section

namespace Verif.Objects

open MathUtils Spectra Region Targets

/-! ### Specification: building everything anew -/

/-- the constructor of the target's class called with the values the attributes have now.  `CMB` does not keep its
argument; its two attributes are taken over. -/
def TargetObj.again (k : Consts) : TargetObj → Option TargetObj
  | .cmb t => some (.cmb t)
  | .ps t => (TargetArgs.ps t.L_0 t.epsilon_0).new k
  | .disk d => (TargetArgs.disk d.M_BH d.L_disk d.eta (.quantity d.R_in) (.quantity d.R_out) false).new k
  | .blr t => (TargetArgs.blr t.L_disk t.xi_line t.line t.R_line).new k
  | .dt t => (TargetArgs.dt t.L_disk t.xi_dt t.T_dt (some t.R_dt)).new k

/-- the same for a process; the sizes of the integration grids are chosen as they are now -/
def Proc.again (h : Heap) : Proc → Option Proc
  | .ec e => do
    let t ← h.targets[e.target]?
    let n ← ECObj.new t e.blob e.target e.r e.integrator
    let n ← n.setMu t e.mu_size
    some (.ec (n.setPhi e.phi_size))
  | .abs a => do
    let n ← AbsObj.new a.target a.r a.z a.mu_s
    some (.abs { (n.setMu a.mu_size).setPhi a.phi_size with l_size := a.l_size })
  | p => some p

/-- `h'` consists of the objects of `h` built anew: distributions as they are, then blobs and targets, then the processes
on the new blobs and targets -/
structure Rebuilt (k : Consts) (distance : ℝ → ℝ) (h h' : Heap) : Prop where
  dists : h'.dists = h.dists
  blobs : List.Forall₂ (fun b b' => BlobObj.new distance b = some b') h.blobs h'.blobs
  targets : List.Forall₂ (fun t t' => t.again k = some t') h.targets h'.targets
  procs : List.Forall₂ (fun p p' => p.again h' = some p') h.procs h'.procs

/-- a statement that is none of the exceptions: assigning the line of a BLR, the temperature of a torus, and giving an
`ExternalCompton` on a disk a target that is not a disk -/
def Op.Tame (h : Heap) : Op → Prop
  | .setTarget _ (.line _) => False
  | .setTarget _ (.T_dt _) => False
  | .setProc a (.target b) => ∀ e d, h.procs[a]? = some (.ec e) → h.targets[e.target]? = some (.disk d) →
    ∃ d', h.targets[b]? = some (.disk d')
  | _ => True

/-- all statements of a program are tame when they are executed -/
def Tame (k : Consts) (distance : ℝ → ℝ) : Heap → List Op → Prop
  | _, [] => True
  | h, op :: ops => op.Tame h ∧ ∀ h', step k distance h op = some h' → Tame k distance h' ops

/-- the statement does not assign the redshift of a blob -/
def Op.KeepsRedshift : Op → Prop
  | .setBlob _ (.z _) => False
  | _ => True

/-! ### Invariant -/

/-- derived attributes the processes read are as the constructor computes them -/
def TargetObj.Fine (k : Consts) : TargetObj → Prop
  | .blr t => BLRObj.new k t.L_disk t.xi_line t.line t.R_line = some t
  | .dt t => DTObj.new k t.L_disk t.xi_dt t.T_dt (some t.R_dt) = t
  | _ => True

def IsDisk : Option TargetObj → Prop
  | some (.disk _) => True
  | _ => False

def Proc.Fine (h : Heap) : Proc → Prop
  | .ec e => e.phi = linspace 0 (2 * Real.pi) e.phi_size
    ∧ (IsDisk h.targets[e.target]? ∨ e.mu = linspace (-1) 1 e.mu_size)
    ∧ e.target < h.targets.length
  | .abs a => a.phi = linspace 0 (2 * Real.pi) a.phi_size ∧ a.mu = linspace (-1) 1 a.mu_size
  | _ => True

structure Inv (k : Consts) (h : Heap) : Prop where
  targets : ∀ t ∈ h.targets, t.Fine k
  procs : ∀ p ∈ h.procs, p.Fine h

theorem inv_start (k : Consts) : Inv k Heap.start := ⟨by simp [Heap.start], by simp [Heap.start]⟩

theorem fine_new {k : Consts} {a : TargetArgs} {t : TargetObj} (h : a.new k = some t) : t.Fine k := by
  cases a with
  | cmb z => cases h; trivial
  | ps L e => cases h; trivial
  | disk M L eta R_in R_out units =>
    simp only [TargetArgs.new, Option.map_eq_some_iff] at h
    obtain ⟨d, -, rfl⟩ := h
    trivial
  | blr L xi line R =>
    simp only [TargetArgs.new, Option.map_eq_some_iff] at h
    obtain ⟨d, hd, rfl⟩ := h
    have hd' := hd
    unfold BLRObj.new at hd'
    cases hl : BLR.linesDictionary.lookup line with
    | none => rw [hl] at hd'; cases hd'
    | some l =>
      rw [hl] at hd'
      cases hd'
      exact hd
  | dt L xi T R => cases h; rfl

theorem fine_set {k : Consts} {t : TargetObj} {s : TargetSet} (h : t.Fine k) (h1 : ∀ x, s ≠ .line x) (h2 : ∀ x, s ≠ .T_dt x) :
    (s.run t).Fine k := by
  cases t with
  | cmb t => cases s <;> trivial
  | ps t => cases s <;> trivial
  | disk t => cases s <;> trivial
  | blr t =>
    have key : ∀ L xi R, BLRObj.new k L xi t.line R = some { t with L_disk := L, xi_line := xi, R_line := R } := by
      intro L xi R
      have hh : BLRObj.new k t.L_disk t.xi_line t.line t.R_line = some t := h
      unfold BLRObj.new at hh ⊢
      cases hl : BLR.linesDictionary.lookup t.line with
      | none => rw [hl] at hh; cases hh
      | some l =>
        rw [hl] at hh
        simp only [Option.some.injEq] at hh ⊢
        rw [← hh]
    cases s with
    | line x => exact absurd rfl (h1 x)
    | L_disk x => exact key _ _ _
    | xi_line x => exact key _ _ _
    | R_line x => exact key _ _ _
    | _ => exact h
  | dt t =>
    have hh : DTObj.new k t.L_disk t.xi_dt t.T_dt (some t.R_dt) = t := h
    have key : ∀ L xi R, DTObj.new k L xi t.T_dt (some R) = { t with L_disk := L, xi_dt := xi, R_dt := R } := by
      intro L xi R
      rw [← hh]
      rfl
    cases s with
    | T_dt x => exact absurd rfl (h2 x)
    | L_disk x => exact key _ _ _
    | xi_dt x => exact key _ _ _
    | R_dt x => exact key _ _ _
    | _ => exact h

theorem isDisk_set (t : TargetObj) (s : TargetSet) : IsDisk (some t) → IsDisk (some (s.run t)) := by
  cases t <;> cases s <;> exact id

theorem fine_setMu {h : Heap} {t : TargetObj} {e e' : ECObj} {n : ℕ} (ht : h.targets[e.target]? = some t)
    (hs : e.setMu t n = some e') :
    e'.phi = e.phi ∧ e'.phi_size = e.phi_size ∧ e'.target = e.target ∧ e'.blob = e.blob ∧ e'.r = e.r
      ∧ e'.integrator = e.integrator ∧ e'.mu_size = n
      ∧ (IsDisk h.targets[e.target]? ∨ e'.mu = linspace (-1) 1 e'.mu_size) := by
  rw [ht]
  cases t with
  | disk d =>
    simp only [ECObj.setMu, Option.map_eq_some_iff] at hs
    obtain ⟨r, -, rfl⟩ := hs
    exact ⟨rfl, rfl, rfl, rfl, rfl, rfl, rfl, Or.inl trivial⟩
  | cmb t => cases hs; exact ⟨rfl, rfl, rfl, rfl, rfl, rfl, rfl, Or.inr rfl⟩
  | ps t => cases hs; exact ⟨rfl, rfl, rfl, rfl, rfl, rfl, rfl, Or.inr rfl⟩
  | blr t => cases hs; exact ⟨rfl, rfl, rfl, rfl, rfl, rfl, rfl, Or.inr rfl⟩
  | dt t => cases hs; exact ⟨rfl, rfl, rfl, rfl, rfl, rfl, rfl, Or.inr rfl⟩

theorem lt_of_getElem? {α : Type} {l : List α} {i : ℕ} {x : α} (h : l[i]? = some x) : i < l.length :=
  (List.getElem?_eq_some_iff.1 h).1

theorem fine_newProc {h : Heap} {a : ProcArgs} {p : Proc} (hp : a.new h = some p) : p.Fine h := by
  cases a with
  | synch b s I => cases hp; trivial
  | proton b I => cases hp; trivial
  | ssc b s I => cases hp; trivial
  | ec b t r I =>
    simp only [ProcArgs.new, Option.bind_eq_bind, Option.bind_eq_some_iff, ECObj.new, Option.map_eq_some_iff] at hp
    obtain ⟨t', ht, e, ⟨e0, he0, rfl⟩, hp⟩ := hp
    cases hp
    have := fine_setMu (h := h) (by exact ht) he0
    refine ⟨rfl, ?_, ?_⟩
    · have := this.2.2.2.2.2.2.2
      simp only [ECObj.setPhi]
      rwa [← fine_setMu (h := h) (by exact ht) he0 |>.2.2.1] at this
    · simp only [ECObj.setPhi]
      rw [this.2.2.1]
      exact lt_of_getElem? ht
  | abs t r z mu_s =>
    simp only [ProcArgs.new, Option.map_eq_some_iff] at hp
    obtain ⟨a, ha, rfl⟩ := hp
    unfold AbsObj.new at ha
    cases r <;> cases t <;> first | cases ha; done | (cases ha; exact ⟨rfl, rfl⟩)

/-- a process stays fine when targets are added or change without leaving the class of disks -/
theorem fine_mono {h h' : Heap} {p : Proc} (hp : p.Fine h) (hl : h.targets.length ≤ h'.targets.length)
    (hd : ∀ a : ℕ, IsDisk h.targets[a]? → IsDisk h'.targets[a]?) : p.Fine h' := by
  cases p with
  | ec e => exact ⟨hp.1, hp.2.1.imp (hd _) id, lt_of_lt_of_le hp.2.2 hl⟩
  | abs a => exact hp
  | _ => trivial

theorem isDisk_iff {o : Option TargetObj} : IsDisk o ↔ ∃ d, o = some (.disk d) := by
  constructor
  · intro h
    cases o with
    | none => exact absurd h id
    | some t => cases t <;> first | exact ⟨_, rfl⟩ | exact absurd h id
  · rintro ⟨d, rfl⟩
    trivial

theorem fine_setProc {h : Heap} {a : ℕ} {p p' : Proc} {s : ProcSet} (ha : h.procs[a]? = some p) (hp : p.Fine h)
    (hs : s.run h p = some p') (hh : (Op.setProc a s).Tame h) : p'.Fine h := by
  cases p with
  | synch b x I => cases s <;> (cases hs; trivial)
  | proton b I => cases s <;> (cases hs; trivial)
  | ssc b x I => cases s <;> (cases hs; trivial)
  | abs q => cases s <;> (cases hs; first | exact hp | exact ⟨hp.1, rfl⟩ | exact ⟨rfl, hp.2⟩)
  | ec e =>
    cases s with
    | blob b => cases hs; exact hp
    | integrator f => cases hs; exact hp
    | r x => cases hs; exact hp
    | setPhi n => cases hs; exact ⟨rfl, hp.2⟩
    | target b =>
      simp only [ProcSet.run] at hs
      split_ifs at hs with hb
      cases hs
      refine ⟨hp.1, ?_, hb⟩
      rcases hp.2.1 with hd | hm
      · obtain ⟨d, hd⟩ := isDisk_iff.1 hd
        exact Or.inl (isDisk_iff.2 (hh e d ha hd))
      · exact Or.inr hm
    | setMu n =>
      simp only [ProcSet.run, Option.bind_eq_bind, Option.bind_eq_some_iff] at hs
      obtain ⟨t, ht, e', he', hs⟩ := hs
      cases hs
      obtain ⟨h1, h2, h3, -, -, -, -, h4⟩ := fine_setMu ht he'
      refine ⟨by rw [h1, h2]; exact hp.1, by rw [h3]; exact h4, by rw [h3]; exact hp.2.2⟩
    | ssa x => cases hs; exact hp
    | z x => cases hs; exact hp
    | mu_s x => cases hs; exact hp
    | setL n => cases hs; exact hp

theorem inv_step {k : Consts} {distance : ℝ → ℝ} {h h' : Heap} {op : Op} (hi : Inv k h) (hh : op.Tame h)
    (hs : step k distance h op = some h') : Inv k h' := by
  cases op with
  | newDist d => cases hs; exact ⟨hi.targets, fun p hp => fine_mono (hi.procs p hp) le_rfl fun _ => id⟩
  | setDist a d => cases hs; exact ⟨hi.targets, fun p hp => fine_mono (hi.procs p hp) le_rfl fun _ => id⟩
  | newBlob b =>
    simp only [step, Option.map_eq_some_iff] at hs
    obtain ⟨b', hb, rfl⟩ := hs
    exact ⟨hi.targets, fun p hp => fine_mono (hi.procs p hp) le_rfl fun _ => id⟩
  | newTarget t =>
    simp only [step, Option.map_eq_some_iff] at hs
    obtain ⟨t', ht, rfl⟩ := hs
    refine ⟨?_, fun p hp => fine_mono (hi.procs p hp) (by simp) fun a hd => ?_⟩
    · intro x hx
      rcases List.mem_append.1 hx with hx | hx
      · exact hi.targets x hx
      · rw [List.mem_singleton.1 hx]
        exact fine_new ht
    · obtain ⟨d, hd⟩ := isDisk_iff.1 hd
      have : (h.targets ++ [t'])[a]? = some (.disk d) := by
        rw [List.getElem?_append_left (lt_of_getElem? hd)]
        exact hd
      exact isDisk_iff.2 ⟨d, this⟩
  | newProc a =>
    simp only [step, Option.map_eq_some_iff] at hs
    obtain ⟨p', hp', rfl⟩ := hs
    refine ⟨hi.targets, fun p hp => ?_⟩
    rcases List.mem_append.1 hp with hp | hp
    · exact fine_mono (hi.procs p hp) le_rfl fun _ => id
    · rw [List.mem_singleton.1 hp]
      exact fine_mono (fine_newProc hp') le_rfl fun _ => id
  | setBlob a s =>
    simp only [step, Option.map_eq_some_iff] at hs
    obtain ⟨b, hb, rfl⟩ := hs
    exact ⟨hi.targets, fun p hp => fine_mono (hi.procs p hp) le_rfl fun _ => id⟩
  | setTarget a s =>
    simp only [step, Option.map_eq_some_iff] at hs
    obtain ⟨t, ht, rfl⟩ := hs
    refine ⟨?_, fun p hp => fine_mono (hi.procs p hp) (by simp) fun b hd => ?_⟩
    · intro x hx
      rcases List.mem_or_eq_of_mem_set hx with hx | hx
      · exact hi.targets x hx
      · rw [hx]
        refine fine_set (hi.targets t (List.mem_of_getElem? ht)) ?_ ?_
        · rintro y rfl; exact hh
        · rintro y rfl; exact hh
    · dsimp only
      rw [List.getElem?_set]
      split_ifs with h1 h2
      · subst h1
        rw [ht] at hd
        exact isDisk_set t s hd
      · subst h1
        exact absurd (lt_of_getElem? ht) h2
      · exact hd
  | setProc a s =>
    simp only [step, Option.bind_eq_bind, Option.bind_eq_some_iff] at hs
    obtain ⟨p, hp, p', hp', hs⟩ := hs
    cases hs
    refine ⟨hi.targets, fun q hq => ?_⟩
    rcases List.mem_or_eq_of_mem_set hq with hq | hq
    · exact fine_mono (hi.procs q hq) le_rfl fun _ => id
    · rw [hq]
      exact fine_mono (fine_setProc hp (hi.procs p (List.mem_of_getElem? hp)) hp' hh) le_rfl fun _ => id

theorem inv_run {k : Consts} {distance : ℝ → ℝ} {ops : List Op} : ∀ {h h' : Heap}, Inv k h →
    Tame k distance h ops → run k distance h ops = some h' → Inv k h' := by
  induction ops with
  | nil => intro h h' hi _ hr; cases hr; exact hi
  | cons op ops ih =>
    intro h h' hi hh hr
    simp only [run, Option.bind_eq_some_iff] at hr
    obtain ⟨h1, hs, hr⟩ := hr
    exact ih (inv_step hi hh.1 hs) (hh.2 h1 hs) hr

/-- a property of the blobs that the constructor establishes and the assignments keep -/
theorem blobs_run {k : Consts} {distance : ℝ → ℝ} (P : BlobObj → Prop) {ok : Op → Prop}
    (hnew : ∀ b b', BlobObj.new distance b = some b' → P b') (hset : ∀ a b s, ok (.setBlob a s) → P b → P (s.run b))
    {ops : List Op} : ∀ {h h' : Heap}, (∀ b ∈ h.blobs, P b) → (∀ op ∈ ops, ok op) → run k distance h ops = some h' →
      ∀ b ∈ h'.blobs, P b := by
  induction ops with
  | nil => intro h h' hi _ hr; cases hr; exact hi
  | cons op ops ih =>
    intro h h' hi hk hr
    simp only [run, Option.bind_eq_some_iff] at hr
    obtain ⟨h1, hs, hr⟩ := hr
    refine ih ?_ (fun o ho => hk o (List.mem_cons_of_mem _ ho)) hr
    have hop := hk op (List.mem_cons_self ..)
    cases op with
    | newDist d => cases hs; exact hi
    | setDist a d => cases hs; exact hi
    | newBlob b =>
      simp only [step, Option.map_eq_some_iff] at hs
      obtain ⟨b', hb, rfl⟩ := hs
      intro x hx
      rcases List.mem_append.1 hx with hx | hx
      · exact hi x hx
      · rw [List.mem_singleton.1 hx]
        exact hnew b b' hb
    | newTarget t =>
      simp only [step, Option.map_eq_some_iff] at hs
      obtain ⟨t', -, rfl⟩ := hs
      exact hi
    | newProc p =>
      simp only [step, Option.map_eq_some_iff] at hs
      obtain ⟨t', -, rfl⟩ := hs
      exact hi
    | setBlob a s =>
      simp only [step, Option.map_eq_some_iff] at hs
      obtain ⟨b, hb, rfl⟩ := hs
      intro x hx
      rcases List.mem_or_eq_of_mem_set hx with hx | hx
      · exact hi x hx
      · rw [hx]
        exact hset a b s hop (hi b (List.mem_of_getElem? hb))
    | setTarget a s =>
      simp only [step, Option.map_eq_some_iff] at hs
      obtain ⟨t', -, rfl⟩ := hs
      exact hi
    | setProc a s =>
      simp only [step, Option.bind_eq_bind, Option.bind_eq_some_iff] at hs
      obtain ⟨p, -, p', -, hs⟩ := hs
      cases hs
      exact hi

theorem new_blob {distance : ℝ → ℝ} {b b' : BlobObj} (h : BlobObj.new distance b = some b') :
    b' = { b with d_L := distance b.z } ∧ 0 < b.delta_D := by
  unfold BlobObj.new at h
  split_ifs at h with h0
  cases h
  exact ⟨rfl, not_le.1 h0⟩

theorem fresh_run {k : Consts} {distance : ℝ → ℝ} {ops : List Op} {h : Heap} (hk : ∀ op ∈ ops, op.KeepsRedshift)
    (hr : run k distance Heap.start ops = some h) : ∀ b ∈ h.blobs, b.d_L = distance b.z := by
  refine blobs_run (fun b => b.d_L = distance b.z) (ok := Op.KeepsRedshift) ?_ ?_ (by simp [Heap.start]) hk hr
  · intro b b' hb
    rw [(new_blob hb).1]
  · intro a b s hs hb
    cases s with
    | z x => exact absurd hs id
    | _ => exact hb

/-! ### Rebuilding a heap that fulfils the invariant -/

/-- the blob with the distance that belongs to its redshift -/
def atDistance (distance : ℝ → ℝ) (b : Blob) : Blob := { b with d_L := distance b.z }

/-- equal but for attributes of a disk that the processes do not read -/
def TargetObj.Alike : TargetObj → TargetObj → Prop
  | .disk d, .disk d' => d'.M_BH = d.M_BH ∧ d'.L_disk = d.L_disk ∧ d'.eta = d.eta ∧ d'.R_in = d.R_in ∧ d'.R_out = d.R_out
  | t, t' => t' = t

theorem again_alike {k : Consts} {t t' : TargetObj} (hf : t.Fine k) (h : t.again k = some t') : t.Alike t' := by
  cases t with
  | cmb t => cases h; rfl
  | ps t => cases h; rfl
  | disk d => cases h; exact ⟨rfl, rfl, rfl, rfl, rfl⟩
  | blr t =>
    simp only [TargetObj.again, TargetArgs.new, Option.map_eq_some_iff] at h
    obtain ⟨u, hu, rfl⟩ := h
    have hf' : BLRObj.new k t.L_disk t.xi_line t.line t.R_line = some t := hf
    rw [hf'] at hu
    cases hu
    rfl
  | dt t =>
    have hf' : DTObj.new k t.L_disk t.xi_dt t.T_dt (some t.R_dt) = t := hf
    simp only [TargetObj.again, TargetArgs.new, hf'] at h
    cases h
    rfl

theorem forall₂_get {α β : Type} {R : α → β → Prop} {l : List α} {l' : List β} (h : List.Forall₂ R l l') (i : ℕ) :
    (l[i]? = none ∧ l'[i]? = none) ∨ ∃ x y, l[i]? = some x ∧ l'[i]? = some y ∧ R x y := by
  induction h generalizing i with
  | nil => left; simp
  | cons hab _ ih =>
    cases i with
    | zero => right; exact ⟨_, _, rfl, rfl, hab⟩
    | succ i => simpa using ih i

variable {k : Consts} {distance : ℝ → ℝ} {h h' : Heap}

theorem Rebuilt.blob (hr : Rebuilt k distance h h') (a : ℕ) : h'.blob a = (h.blob a).map (atDistance distance) := by
  unfold Heap.blob
  rw [hr.dists]
  rcases forall₂_get hr.blobs a with ⟨h1, h2⟩ | ⟨b, b', h1, h2, h3⟩
  · rw [h1, h2]; rfl
  · rw [h1, h2]
    rw [(new_blob h3).1]
    simp only [Option.bind_eq_bind, Option.bind_some]
    cases h.dists[b.n_e]? with
    | none => rfl
    | some n_e =>
      cases b.n_p with
      | none => rfl
      | some p =>
        simp only [Option.bind_some]
        cases h.dists[p]? <;> rfl

theorem blob_mem {a : ℕ} {b : Blob} (hb : h.blob a = some b) : ∃ o ∈ h.blobs, b.d_L = o.d_L ∧ b.z = o.z := by
  unfold Heap.blob at hb
  simp only [Option.bind_eq_bind, Option.bind_eq_some_iff] at hb
  obtain ⟨o, ho, n_e, -, hb⟩ := hb
  refine ⟨o, List.mem_of_getElem? ho, ?_⟩
  cases hp : o.n_p with
  | none => rw [hp] at hb; cases hb; exact ⟨rfl, rfl⟩
  | some p =>
    rw [hp] at hb
    simp only at hb
    cases hq : h.dists[p]? with
    | none => rw [hq] at hb; cases hb
    | some q => rw [hq] at hb; cases hb; exact ⟨rfl, rfl⟩

theorem Rebuilt.target (hi : Inv k h) (hr : Rebuilt k distance h h') (a : ℕ) :
    (h.targets[a]? = none ∧ h'.targets[a]? = none)
      ∨ ∃ t t', h.targets[a]? = some t ∧ h'.targets[a]? = some t' ∧ t.Alike t' := by
  rcases forall₂_get hr.targets a with h1 | ⟨t, t', h1, h2, h3⟩
  · exact Or.inl h1
  · exact Or.inr ⟨t, t', h1, h2, again_alike (hi.targets t (List.mem_of_getElem? h1)) h3⟩

/-- the factor by which the fluxes of a blob with an outdated distance are wrong -/
def dim (distance : ℝ → ℝ) (b : Blob) : ℝ := (b.d_L / distance b.z) ^ 2

section Dim

variable {b : Blob} (hd : b.d_L ≠ 0) (hz : distance b.z ≠ 0)
include hd hz

omit hz in
theorem atDistance_eq : atDistance distance b = { b with d_L := (distance b.z / b.d_L) * b.d_L } := by
  rw [div_mul_cancel₀ _ hd]
  rfl

theorem dim_eq (x : ℝ) : x / (distance b.z / b.d_L) ^ 2 = dim distance b * x := by
  unfold dim
  field_simp

theorem synch_dim (I : List ℝ → List ℝ → ℝ) (ssa : Bool) (nu : ℝ) (gamma : List ℝ) :
    Synchrotron.sedFlux k I ssa nu b.z (distance b.z) b.delta_D b.B b.R_b b.n_e gamma
      = dim distance b * Synchrotron.sedFlux k I ssa nu b.z b.d_L b.delta_D b.B b.R_b b.n_e gamma := by
  rw [← dim_eq hd hz, ← Synchrotron.C51_distance, div_mul_cancel₀ _ hd]

theorem proton_dim (I : List ℝ → List ℝ → ℝ) (nu : ℝ) (n : Dist) (gamma : List ℝ) :
    Synchrotron.sedFluxProton k I nu b.z (distance b.z) b.delta_D b.B b.R_b n gamma
      = dim distance b * Synchrotron.sedFluxProton k I nu b.z b.d_L b.delta_D b.B b.R_b n gamma := by
  unfold Synchrotron.sedFluxProton dim
  dsimp only
  generalize I _ _ = J
  field_simp

theorem ssc_dim (I : List ℝ → List ℝ → ℝ) (ssa : Bool) (nu : ℝ) (gamma : List ℝ) :
    Compton.sscSed k I ssa nu b.z (distance b.z) b.delta_D b.B b.R_b b.n_e gamma
      = dim distance b * Compton.sscSed k I ssa nu b.z b.d_L b.delta_D b.B b.R_b b.n_e gamma := by
  rw [← dim_eq hd hz, ← Compton.C53_distance _ _ _ _ _ _ _ (div_ne_zero hz hd), div_mul_cancel₀ _ hd]

theorem ec_dim (t : Compton.Target) (r : ℝ) (mu : List ℝ) (n : ℕ) (phi : List ℝ) (I : List ℝ → List ℝ → ℝ) (nu : ℝ) :
    (Compton.EC.mk (atDistance distance b) t r mu n phi I).sedFlux k nu
      = ((Compton.EC.mk b t r mu n phi I).sedFlux k nu).map (dim distance b * ·) := by
  have := Compton.C54_distance (k := k) ⟨b, t, r, mu, n, phi, I⟩ (distance b.z / b.d_L) nu
  rw [atDistance_eq hd, this]
  congr 1
  funext x
  exact dim_eq hd hz x

theorem dt_dim (I : List ℝ → List ℝ → ℝ) (nu mu_s L xi e R r : ℝ) (gamma phi : List ℝ) :
    Compton.dt k I nu b.z (distance b.z) b.delta_D mu_s b.R_b L xi e R r b.n_e gamma phi
      = dim distance b * Compton.dt k I nu b.z b.d_L b.delta_D mu_s b.R_b L xi e R r b.n_e gamma phi := by
  have key : ∀ p q w y x : ℝ, p / (q * distance b.z ^ 2 * w * y) * x = dim distance b * (p / (q * b.d_L ^ 2 * w * y) * x) := by
    intro p q w y x
    unfold dim
    rw [div_pow, show q * distance b.z ^ 2 * w * y = distance b.z ^ 2 * (q * w * y) by ring,
      show q * b.d_L ^ 2 * w * y = b.d_L ^ 2 * (q * w * y) by ring, ← div_div, ← div_div]
    field_simp
  unfold Compton.dt
  exact key _ _ _ _ _

theorem tauSynch_dim (nu : ℝ) (n : ℕ) (m : ℝ) :
    Absorption.tauSynch k (atDistance distance b) nu n m = Absorption.tauSynch k b nu n m := by
  unfold Absorption.tauSynch
  have e : ∀ nu, Synchrotron.sedFlux k trapz true nu (atDistance distance b).z (atDistance distance b).d_L
      (atDistance distance b).delta_D (atDistance distance b).B (atDistance distance b).R_b (atDistance distance b).n_e
      (atDistance distance b).gamma_e
      = dim distance b * Synchrotron.sedFlux k trapz true nu b.z b.d_L b.delta_D b.B b.R_b b.n_e b.gamma_e :=
    fun nu => synch_dim hd hz trapz true nu b.gamma_e
  simp only [e]
  have e2 : ∀ sed, 3 * (atDistance distance b).d_L ^ 2 * (dim distance b * sed) = 3 * b.d_L ^ 2 * sed := by
    intro sed
    unfold dim atDistance
    dsimp only
    field_simp
  simp only [List.zipWith_map_left, e2]
  rfl

end Dim

/-- answer of the process in the rebuilt heap against the one before -/
theorem sedEC_alike (hr : Rebuilt k distance h h') (hd : ∀ b ∈ h.blobs, b.d_L ≠ 0 ∧ distance b.z ≠ 0)
    {e e' : ECObj} (h1 : e'.blob = e.blob) (h2 : e'.target = e.target)
    (h3 : e'.r = e.r) (h4 : e'.integrator = e.integrator) (h5 : e'.mu_size = e.mu_size) (h6 : e'.phi = e.phi)
    (hm : IsDisk h.targets[e.target]? ∨ e'.mu = e.mu)
    (ht : (h.targets[e.target]? = none ∧ h'.targets[e.target]? = none)
      ∨ ∃ t t', h.targets[e.target]? = some t ∧ h'.targets[e.target]? = some t' ∧ t.Alike t') (nu : ℝ) :
    h'.sedEC k e' nu = (h.blob e.blob).bind fun b => (h.sedEC k e nu).map (dim distance b * ·) := by
  unfold Heap.sedEC
  rw [h2]
  rcases ht with ⟨a, b⟩ | ⟨t, t', a, b, c⟩
  · rw [a, b]; cases h.blob e.blob <;> rfl
  · rw [a] at hm
    rw [a, b]
    simp only [Option.bind_eq_bind, Option.bind_some]
    cases hbb : h.blob e.blob with
    | none =>
      cases t <;> cases t' <;> first
        | (simp [TargetObj.Alike] at c; done)
        | simp [Heap.sedCMB, Heap.sedPS, Heap.sedDisk, Heap.sedBLR, Heap.sedDT, h1, hr.blob, hbb]
    | some bl =>
      obtain ⟨o, ho, o1, o2⟩ := blob_mem hbb
      have hd' : bl.d_L ≠ 0 := by rw [o1]; exact (hd o ho).1
      have hz' : distance bl.z ≠ 0 := by rw [o2]; exact (hd o ho).2
      cases t with
      | disk d =>
        cases t' with
        | disk d' =>
          obtain ⟨c1, c2, c3, c4, c5⟩ := c
          simp only [Heap.sedDisk, hr.blob, h1, h3, h4, h5, h6, c1, c2, c3, c4, c5, hbb, Option.bind_eq_bind, Option.bind_some,
            Option.map_some]
          cases e.r with
          | none => rfl
          | some r =>
            have := ec_dim (k := k) hd' hz' (.disk ⟨d.M_BH, d.L_disk, d.eta, d.R_in, d.R_out⟩) r e.mu e.mu_size e.phi
              e.integrator nu
            simpa only [Compton.EC.sedFlux, Option.map_some, Option.bind_some] using this
        | _ => cases c
      | cmb t =>
        cases c
        simp only [Heap.sedCMB, hr.blob, h1, h4, h6, hm.resolve_left id, hbb, Option.bind_eq_bind, Option.bind_some, Option.map_some]
        have := ec_dim (k := k) hd' hz' (.cmb t) 0 e.mu e.mu_size e.phi e.integrator nu
        simpa only [Compton.EC.sedFlux, Option.map_some] using this
      | ps t =>
        cases c
        simp only [Heap.sedPS, hr.blob, h1, h3, h4, hbb, Option.bind_eq_bind, Option.bind_some, Option.map_some]
        cases e.r with
        | none => rfl
        | some r =>
          have := ec_dim (k := k) hd' hz' (.ps t) r e.mu e.mu_size e.phi e.integrator nu
          simpa only [Compton.EC.sedFlux, Option.map_some, Option.bind_some] using this
      | blr t =>
        cases c
        simp only [Heap.sedBLR, hr.blob, h1, h3, h4, h6, hm.resolve_left id, hbb, Option.bind_eq_bind, Option.bind_some,
          Option.map_some]
        cases e.r with
        | none => rfl
        | some r =>
          have := ec_dim (k := k) hd' hz' (.blr ⟨t.L_disk, t.xi_line, t.epsilon_line, t.R_line⟩) r e.mu e.mu_size e.phi
            e.integrator nu
          simpa only [Compton.EC.sedFlux, Option.map_some, Option.bind_some] using this
      | dt t =>
        cases c
        simp only [Heap.sedDT, hr.blob, h1, h3, h4, h6, hbb, Option.bind_eq_bind, Option.bind_some, Option.map_some]
        cases e.r with
        | none => rfl
        | some r =>
          simp only [Option.bind_some, Option.map_some, Option.some.injEq]
          exact dt_dim hd' hz' _ _ _ _ _ _ _ _ _ _

theorem tau_alike (hr : Rebuilt k distance h h') (hd : ∀ b ∈ h.blobs, b.d_L ≠ 0 ∧ distance b.z ≠ 0) (a : AbsObj)
    (ht : ∀ i : ℕ, (h.targets[i]? = none ∧ h'.targets[i]? = none)
      ∨ ∃ t t', h.targets[i]? = some t ∧ h'.targets[i]? = some t' ∧ t.Alike t') (nu : ℝ) :
    h'.tau k a nu = h.tau k a nu := by
  unfold Heap.tau
  cases a.target with
  | blob b =>
    dsimp only
    rw [hr.blob]
    cases hbb : h.blob b with
    | none => rfl
    | some bl =>
      obtain ⟨o, ho, o1, o2⟩ := blob_mem hbb
      simp only [Option.map_some, Option.some.injEq]
      exact tauSynch_dim (by rw [o1]; exact (hd o ho).1) (by rw [o2]; exact (hd o ho).2) _ _ _
  | target i =>
    dsimp only
    rcases ht i with ⟨a, b⟩ | ⟨t, t', a, b, c⟩
    · rw [a, b]
    · rw [a, b]
      cases t with
      | disk d =>
        cases t' with
        | disk d' =>
          obtain ⟨c1, c2, c3, c4, c5⟩ := c
          simp only [Option.bind_eq_bind, Option.bind_some, c1, c2, c3, c4, c5]
        | _ => cases c
      | _ => cases c; rfl

theorem again_ec {e : ECObj} {p : Proc} (h : (Proc.ec e).again h' = some p) (hf : (Proc.ec e).Fine h')  :
    ∃ e' : ECObj, p = .ec e' ∧ e'.blob = e.blob ∧ e'.target = e.target ∧ e'.r = e.r ∧ e'.integrator = e.integrator
      ∧ e'.mu_size = e.mu_size ∧ e'.phi = e.phi ∧ (IsDisk h'.targets[e.target]? ∨ e'.mu = e.mu) := by
  simp only [Proc.again, Option.bind_eq_bind, Option.bind_eq_some_iff, ECObj.new, Option.map_eq_some_iff] at h
  obtain ⟨t, ht, n, ⟨n0, hn0, rfl⟩, n1, hn1, h⟩ := h
  cases h
  obtain ⟨-, -, a3, a4, a5, a6, -, -⟩ := fine_setMu (h := h') (e := _) (by exact ht) hn0
  obtain ⟨-, -, b3, b4, b5, b6, b7, b8⟩ := fine_setMu (h := h') (by simp only [ECObj.setPhi]; rw [a3]; exact ht) hn1
  simp only [ECObj.setPhi] at b3 b4 b5 b6 b8
  rw [a3] at b3 b8
  refine ⟨_, rfl, b4.trans a4, b3, b5.trans a5, b6.trans a6, b7, hf.1.symm, ?_⟩
  rcases b8 with b8 | b8
  · exact Or.inl b8
  · rcases hf.2.1 with hd | hm
    · exact Or.inl hd
    · right
      simp only [ECObj.setPhi]
      rw [b8, b7, hm]

/-- the blob that emits the radiation of the process `p` -/
def Heap.source (h : Heap) (p : ℕ) : Option Blob := ((h.procs[p]?).bind Proc.emitter).bind h.blob

theorem luminosity_eq (p : ℕ) (nu : ℝ) :
    h.luminosity k p nu = (h.source p).bind fun b => (h.ask k p nu).map (4 * Real.pi * b.d_L ^ 2 * ·) := by
  unfold Heap.luminosity Heap.source
  simp only [Option.bind_eq_bind, Option.bind_assoc]
  congr 1
  funext q
  congr 1
  funext a
  congr 1
  funext b
  cases h.ask k p nu <;> rfl

theorem ask_rebuilt (hi : Inv k h) (hr : Rebuilt k distance h h') (hd : ∀ b ∈ h.blobs, b.d_L ≠ 0 ∧ distance b.z ≠ 0)
    (p : ℕ) (nu : ℝ) :
    h'.source p = (h.source p).map (atDistance distance)
    ∧ (∀ b, h.source p = some b → h'.ask k p nu = (h.ask k p nu).map (dim distance b * ·))
    ∧ (h.source p = none → h'.ask k p nu = h.ask k p nu) := by
  have ht := hr.target hi
  have hlen : h'.targets.length = h.targets.length := hr.targets.length_eq.symm
  have hdisk : ∀ a : ℕ, IsDisk h.targets[a]? ↔ IsDisk h'.targets[a]? := by
    intro a
    rcases ht a with ⟨x, y⟩ | ⟨t, t', x, y, c⟩
    · rw [x, y]
    · rw [x, y]
      cases t <;> cases t' <;> first | exact Iff.rfl | exact absurd c (by simp [TargetObj.Alike])
  unfold Heap.ask Heap.source
  rcases forall₂_get hr.procs p with ⟨x, y⟩ | ⟨q, q', x, y, hq⟩
  · rw [x, y]; exact ⟨rfl, fun b hb => (by cases hb), fun _ => rfl⟩
  · rw [x, y]
    simp only [Option.bind_eq_bind, Option.bind_some]
    have hf := hi.procs q (List.mem_of_getElem? x)
    have near : ∀ {a : ℕ} {b : Blob}, h.blob a = some b → b.d_L ≠ 0 ∧ distance b.z ≠ 0 := by
      intro a b hb
      obtain ⟨o, ho, o1, o2⟩ := blob_mem hb
      rw [o1, o2]
      exact hd o ho
    cases q with
    | synch a s I =>
      cases hq
      simp only [Proc.emitter, Option.bind_some, Heap.sedSynch, hr.blob, Option.bind_eq_bind]
      refine ⟨trivial, fun b hb => ?_, fun hb => ?_⟩
      · rw [hb]
        simp only [Option.map_some, Option.bind_some, Option.some.injEq]
        exact synch_dim (near hb).1 (near hb).2 _ _ _ _
      · rw [hb]; rfl
    | proton a I =>
      cases hq
      simp only [Proc.emitter, Option.bind_some, Heap.sedProton, hr.blob, Option.bind_eq_bind]
      refine ⟨trivial, fun b hb => ?_, fun hb => ?_⟩
      · rw [hb]
        simp only [Option.map_some, Option.bind_some]
        have e1 : (atDistance distance b).protons = b.protons := rfl
        have e2 : (atDistance distance b).gamma_p = b.gamma_p := rfl
        rw [e1, e2]
        cases b.protons.toOption with
        | none => rfl
        | some n =>
          cases b.gamma_p.toOption with
          | none => rfl
          | some g =>
            simp only [Option.map_some, Option.bind_some, Option.some.injEq]
            exact proton_dim (near hb).1 (near hb).2 _ _ _ _
      · rw [hb]; rfl
    | ssc a s I =>
      cases hq
      simp only [Proc.emitter, Option.bind_some, Heap.sedSSC, hr.blob, Option.bind_eq_bind]
      refine ⟨trivial, fun b hb => ?_, fun hb => ?_⟩
      · rw [hb]
        simp only [Option.map_some, Option.bind_some, Option.some.injEq]
        exact ssc_dim (near hb).1 (near hb).2 _ _ _ _
      · rw [hb]; rfl
    | ec e =>
      have hf' : (Proc.ec e).Fine h' := fine_mono hf hlen.ge fun a => (hdisk a).1
      obtain ⟨e', rfl, a1, a2, a3, a4, a5, a6, a7⟩ := again_ec hq hf'
      have key := sedEC_alike hr hd a1 a2 a3 a4 a5 a6 (a7.imp (hdisk _).2 id) (ht _) nu
      simp only [Proc.emitter, Option.bind_some, a1]
      refine ⟨hr.blob _, fun b hb => ?_, fun hb => ?_⟩
      · rw [key, hb]; rfl
      · rw [key, hb]
        unfold Heap.sedEC
        cases h.targets[e.target]? with
        | none => rfl
        | some t =>
          simp only [Option.bind_none, Option.bind_eq_bind, Option.bind_some]
          cases t <;> simp [Heap.sedCMB, Heap.sedPS, Heap.sedDisk, Heap.sedBLR, Heap.sedDT, hb]
    | abs a =>
      have : q' = .abs a := by
        simp only [Proc.again, Option.bind_eq_bind, Option.bind_eq_some_iff] at hq
        obtain ⟨n, hn, hq⟩ := hq
        cases hq
        unfold AbsObj.new at hn
        obtain ⟨target, r, z, mu_s, mu_size, mu, phi_size, phi, l_size⟩ := a
        obtain ⟨hf1, hf2⟩ := hf
        simp only at hf1 hf2
        subst hf1 hf2
        cases r <;> cases target <;> first | cases hn; done | (cases hn; rfl)
      subst this
      refine ⟨rfl, fun b hb => (by cases hb), fun _ => tau_alike hr hd a ht nu⟩

/-! ### C89 -/

/-- C89: after any program of constructions and assignments but for the exceptions, every process answers as if all
objects were built anew from the values the attributes have at that moment -/
theorem C89_rebuild {ops : List Op} (hrun : run k distance Heap.start ops = some h)
    (hh : Tame k distance Heap.start ops) (hz : ∀ op ∈ ops, op.KeepsRedshift) (hr : Rebuilt k distance h h')
    (hd : ∀ b ∈ h.blobs, distance b.z ≠ 0) (p : ℕ) (nu : ℝ) :
    h'.ask k p nu = h.ask k p nu ∧ h'.luminosity k p nu = h.luminosity k p nu := by
  have hf := fresh_run hz hrun
  obtain ⟨a1, a2, a3⟩ := ask_rebuilt (inv_run (inv_start k) hh hrun) hr
    (fun b hb => ⟨by rw [hf b hb]; exact hd b hb, hd b hb⟩) p nu
  have same : ∀ b, h.source p = some b → dim distance b = 1 ∧ atDistance distance b = b := by
    intro b hb
    unfold Heap.source at hb
    simp only [Option.bind_eq_some_iff] at hb
    obtain ⟨a, -, hb⟩ := hb
    obtain ⟨o, ho, o1, o2⟩ := blob_mem hb
    have e : b.d_L = distance b.z := by rw [o1, o2]; exact hf o ho
    have n : distance b.z ≠ 0 := by rw [o2]; exact hd o ho
    constructor
    · unfold dim; rw [e, div_self n, one_pow]
    · unfold atDistance; rw [← e]
  have e1 : h'.ask k p nu = h.ask k p nu := by
    cases hs : h.source p with
    | none => exact a3 hs
    | some b =>
      rw [a2 b hs, (same b hs).1]
      simp only [one_mul, Option.map_id']
  refine ⟨e1, ?_⟩
  rw [luminosity_eq, luminosity_eq, a1, e1]
  cases hs : h.source p with
  | none => rfl
  | some b =>
    rw [Option.map_some, (same b hs).2]

/-- C89: the redshift is different.  When it is assigned as well, the luminosities and opacities are still those of the
objects built anew; but the distance stays the old one, and the fluxes are too large by the square of the ratio of the
distances -/
theorem C89_redshift {ops : List Op} (hrun : run k distance Heap.start ops = some h)
    (hh : Tame k distance Heap.start ops) (hr : Rebuilt k distance h h')
    (hd : ∀ b ∈ h.blobs, b.d_L ≠ 0 ∧ distance b.z ≠ 0) (p : ℕ) (nu : ℝ) :
    h'.luminosity k p nu = h.luminosity k p nu
    ∧ (∀ a, h.procs[p]? = some (.abs a) → h'.ask k p nu = h.ask k p nu)
    ∧ ∀ b, h.source p = some b → h.ask k p nu = (h'.ask k p nu).map ((distance b.z / b.d_L) ^ 2 * ·) := by
  obtain ⟨a1, a2, a3⟩ := ask_rebuilt (inv_run (inv_start k) hh hrun) hr hd p nu
  have near : ∀ b, h.source p = some b → b.d_L ≠ 0 ∧ distance b.z ≠ 0 := by
    intro b hb
    unfold Heap.source at hb
    simp only [Option.bind_eq_some_iff] at hb
    obtain ⟨a, -, hb⟩ := hb
    obtain ⟨o, ho, o1, o2⟩ := blob_mem hb
    rw [o1, o2]
    exact hd o ho
  refine ⟨?_, fun a ha => a3 ?_, fun b hb => ?_⟩
  · rw [luminosity_eq, luminosity_eq, a1]
    cases hs : h.source p with
    | none => rfl
    | some b =>
      obtain ⟨n1, n2⟩ := near b hs
      simp only [Option.map_some, Option.bind_some]
      rw [a2 b hs, Option.map_map]
      congr 1
      funext x
      simp only [Function.comp_apply, atDistance, dim]
      field_simp
  · unfold Heap.source
    rw [ha]
    rfl
  · obtain ⟨n1, n2⟩ := near b hb
    rw [a2 b hb, Option.map_map]
    have : ((fun x => (distance b.z / b.d_L) ^ 2 * x) ∘ fun x => dim distance b * x) = id := by
      funext x
      simp only [Function.comp_apply, dim, id]
      field_simp
    rw [this, Option.map_id]
    rfl

end Verif.Objects

end
